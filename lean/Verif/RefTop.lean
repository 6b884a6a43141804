import Verif.RefSim4
import Verif.RegistryProps
/-! # The interpreter simulates the reference semantics: definitions, programs, the initial state -/
namespace Pscm.Ref
open Pscm.Ev hiding Name Form evalForm
open Pscm.Ev.EM (modSt)
variable {σ : Type} {P : Prims σ} {A : Name → Int → Prop} {B : Builtins} {W W' : World} {st : Store} {s s' : St σ} {X0 : Fixed σ}

/-- A top-level form as the list the reader makes of it. -/
def Form.toV : Form → V
  | .exp e => e.toV
  | .define x e => listOf [.sym "define", .sym x, e.toV]
  | .defun f ps rest body => .pair (.sym "define") (.pair (.pair (.sym f) (paramList ps rest)) (listOf (Exp.toVs body)))

/-- The forms of the sublanguage; `(define (f ...) ...)` for a name `f` that is not a builtin. -/
def Form.Ok (A : Name → Int → Prop) : Form → Prop
  | .exp e => e.Ok
  | .define x e => IsVar x ∧ e.Ok
  | .defun f ps rest body => IsVar f ∧ (∀ a, ¬ A f a) ∧ (Exp.lam ps rest body).Ok

/-- The store of `(define x e)` at top level. -/
theorem StRel.define (h : StRel X0 A W st s) {x : Name} {v : Val} {w : V} (hx : IsVar x) (hr : VRel A W v w) :
    StRel X0 A W { st with globals := setGlobal x v st.globals } (defineSt s 0 x w) ∧ After W W s (defineSt s 0 x w) := by
  obtain ⟨es, md, h0, hm, _⟩ := h.top
  unfold defineSt
  simp only [h0]
  have hlo : lookOwn s.frames 0 x = es.lookup x := by simp [lookOwn, h0, lookup_eq_findEntry]
  rw [hlo]
  cases hes : es.lookup x with
  | some w0 =>
    refine ⟨h.setTop h0 hm hes hx.macros hr, World.le_refl W, ?_, fun _ _ h => h, fun j hj0 _ _ _ => ?_⟩
    · simp [updFrame_length']
    · simp only [Option.isSome_some, if_true, getElem?_upd_ne _ _ (show j ≠ 0 by omega)]
  | none =>
    simp only [Option.isSome_none, Bool.false_eq_true, if_false]
    have hq := h.setRoot h0 hm hes hr
    have : obSet s.mods s.cur x w = obSet s.mods s.root x w := by rw [h.curRoot]
    rw [this]
    exact ⟨hq, World.le_refl W, Nat.le_refl _, fun _ _ h => h, fun _ _ _ _ _ => rfl⟩

/-- The store of `(define (f ...) ...)` at top level. -/
theorem StRel.defun (h : StRel X0 A W st s) {x : Name} {v : Val} {w : V} (hx : IsVar x) (hA : ∀ a, ¬ A x a) (hr : VRel A W v w) :
    StRel X0 A W { st with globals := setGlobal x v st.globals } (defineProcSt s x w) ∧ After W W s (defineProcSt s x w) := by
  obtain ⟨es, md, h0, hm, _, _, _, hb⟩ := h.top
  unfold defineProcSt
  have hes : es.lookup x = none := by
    cases hes : es.lookup x with
    | none => rfl
    | some w0 =>
      rcases hb x w0 hes with h | ⟨a, ha⟩
      · exact absurd h hx.macros
      · exact absurd ha (hA a)
  have hq := h.setRoot h0 hm hes hr
  have : obSet s.mods s.cur x w = obSet s.mods s.root x w := by rw [h.curRoot]
  rw [this]
  exact ⟨hq, World.le_refl W, Nat.le_refl _, fun _ _ h => h, fun _ _ _ _ _ => rfl⟩

/-- `(define (f ...) body ...)` stores the procedure and is nothing else. -/
theorem run_defun (h : StRel X0 A W st s) {f ps rest} {body : List Exp} (hne : body ≠ []) :
    run P (.eval 0 (Form.defun f ps rest body).toV) s =
      some (.ok .none, defineProcSt s f (.proc (paramList ps rest) (listOf (Exp.toVs body)) 0)) := by
  show run P (.eval 0 (.pair (.sym "define") _)) s = _
  rw [run_form h (f := .define) (by decide)]
  have hne := toVs_ne hne
  have hbody : mkBody (listOf (Exp.toVs body)) = listOf (Exp.toVs body) := by
    cases hc : Exp.toVs body with
    | nil => exact absurd hc hne
    | cons y ys => rfl
  have hlam : (evalLambda 0 (.pair (paramList ps rest) (listOf (Exp.toVs body))) : EM σ V) s =
      some (.ok (.proc (paramList ps rest) (listOf (Exp.toVs body)) 0), s) := by
    unfold evalLambda
    simp only [uncons, hbody]
    cases ps <;> cases rest <;> rfl
  show (evalLambda 0 (.pair (paramList ps rest) (listOf (Exp.toVs body))) >>= fun v => (modSt fun s => defineProcSt s f v) >>= fun _ => pure V.none) s = _
  rw [bind_apply, hlam]
  rfl

/-- The store of `(define (f ...) ...)` for a name bound in the global environment: the definition is not visible. -/
theorem StRel.hidden (h : StRel X0 A W st s) {es x w w0} (h0 : s.frames[0]? = some ⟨es, none, none⟩) (hx : es.lookup x = some w0) (hw : isMacro w = false) :
    StRel X0 A W st (defineProcSt s x w) := by
  obtain ⟨es', md, k0, km, ku, kn, ks, kb⟩ := h.top
  rw [h0] at k0
  cases k0
  have hlt : s.root < s.mods.length := (List.getElem?_eq_some_iff.1 km).1
  have hob : obSet s.mods s.cur x w = s.mods.set s.root { md with obarray := upsert x w md.obarray } := by
    unfold obSet; rw [h.curRoot, km]
  unfold defineProcSt
  refine ⟨h.wf, h.rib, h.inj, h.macros, ?_, h.curRoot, h.catches, h.ext, h.kept, ?_⟩
  · intro m hmm q hq
    simp only [hob] at hmm
    rcases List.mem_or_eq_of_mem_set hmm with hmm | rfl
    · exact h.modMacros m hmm q hq
    · rcases mem_upsert hq with hq | hq
      · exact h.modMacros md (List.mem_iff_getElem?.2 ⟨_, km⟩) q hq
      · rw [hq]; exact hw
  · have key : ∀ y, topVal es (upsert x w md.obarray) y = topVal es md.obarray y := by
      intro y
      unfold topVal
      rw [lookup_upsert]
      by_cases hy : y = x
      · simp [hy, hx]
      · simp [hy]
    exact ⟨es, { md with obarray := upsert x w md.obarray }, h0, by simp only [hob]; rw [List.getElem?_set_self hlt], ku,
      fun y hym hy => by rw [key]; exact kn y hym hy, fun y u hy => by rw [key]; exact ks y u hy, kb⟩

theorem sim_form (hI : Implements X0 P A B) (n : Nat) {f : Form} (hok : f.Ok A) (h : StRel X0 A W st s) :
    Sim X0 A (VRel A) W s (run P (.eval 0 f.toV) s) (evalForm B n st f) := by
  cases f with
  | exp e => exact sim hI n hok .top h
  | define x e =>
    have : run P (.eval 0 (Form.define x e).toV) s =
        (run P (.eval 0 e.toV) >>= fun v => (modSt fun s => defineSt s 0 x v) >>= fun _ => pure V.none) s := by
      show run P (.eval 0 (.pair (.sym "define") (.pair (.sym x) (.pair e.toV .nil)))) s = _
      rw [run_form h (f := .define) (by decide)]
      rfl
    rw [this]
    refine Sim.bind (sim hI n hok.2 .top h) fun W' s' v w st' ha hv h' => ?_
    obtain ⟨h1, h2⟩ := h'.define (x := x) hok.1 hv
    exact ⟨_, _, W', rfl, h2, rfl, h1⟩
  | defun f ps rest body =>
    obtain ⟨hf, hA, hl⟩ := hok
    have hl' := hl
    simp only [Exp.Ok] at hl'
    rw [run_defun h hl'.2.2.1]
    have hr : VRel A W (.clo ps rest body []) (.proc (paramList ps rest) (listOf (Exp.toVs body)) 0) := ⟨0, rfl, .top, hl⟩
    obtain ⟨h1, h2⟩ := h.defun (x := f) hf hA hr
    exact ⟨_, _, W, rfl, h2, rfl, h1⟩

theorem sim_program (hI : Implements X0 P A B) (n : Nat) (fs : List Form) (hok : ∀ f ∈ fs, f.Ok A) (h : StRel X0 A W st s) :
    Sim X0 A (VRel A) W s (evalSeq (run P) 0 (fs.map Form.toV) s) (evalProgram B n st fs) := by
  induction fs generalizing W st s with
  | nil => simp only [evalProgram]; trivial
  | cons f fs ih =>
    cases fs with
    | nil =>
      simp only [evalProgram, List.map_cons, List.map_nil, evalSeq]
      exact sim_form hI n (hok f (.head _)) h
    | cons g fs =>
      simp only [evalProgram, List.map_cons, evalSeq]
      exact Sim.bind (sim_form hI n (hok f (.head _)) h) fun W' s' v w st' ha hv h' => ih (fun k hk => hok k (.tail _ hk)) h'

/-! ## The initial state -/

/-- The builtins, as they are registered. -/
def Registered (x : Name) (a : Int) : Prop := ∃ r ∈ registry, r.name = x ∧ r.arity = a

/-- The names of the global variables of the initial state. -/
def builtinNames : List Name := registry.map Reg.name

attribute [local irreducible] registered registry

theorem lookup_initial (names : List Name) (x : Name) :
    (initial names).globals.lookup x = if x ∈ names then some (.prim x) else if x = "%load-path" then some .nil else none := by
  unfold initial
  simp only []
  induction names with
  | nil =>
    simp only [List.map_nil, List.nil_append, List.not_mem_nil, if_false, List.lookup]
    by_cases hx : x = "%load-path"
    · simp [hx]
    · have : (x == "%load-path") = false := by simpa using hx
      simp [this, hx]
  | cons y ys ih =>
    simp only [List.map_cons, List.cons_append, List.lookup]
    by_cases hxy : x = y
    · subst hxy; simp
    · have : (x == y) = false := by simpa using hxy
      simp [this, ih, hxy]

theorem registered_noMacro (rs : List Reg) (es : List (Name × V)) (h : ∀ q ∈ es, isMacro q.2 = false) : ∀ q ∈ registered rs es, isMacro q.2 = false := by
  induction rs generalizing es with
  | nil => simpa [registered] using h
  | cons r rs ih =>
    simp only [registered]
    refine ih _ fun q hq => ?_
    unfold envInsert at hq
    split at hq
    · obtain ⟨e, he, rfl⟩ := List.mem_map.1 hq
      split
      · rfl
      · exact h e he
    · rcases List.mem_cons.1 hq with rfl | hq
      · rfl
      · exact h q hq

/-- The macros of the initial state are found in its global environment. -/
theorem start_macro {y : Name} (hy : y ∈ macroNames) : (initMacros.reverse ++ registered registry []).lookup y = initMacros.lookup y := by
  generalize registered registry [] = es
  have : macroNames.all (fun y => (initMacros.reverse.lookup y).isSome && decide (initMacros.reverse.lookup y = initMacros.lookup y)) = true := by decide +kernel
  have := List.all_eq_true.1 this y hy
  simp only [Bool.and_eq_true, decide_eq_true_eq] at this
  obtain ⟨h1, h2⟩ := this
  obtain ⟨v, hv⟩ := Option.isSome_iff_exists.1 h1
  rw [← h2, hv]
  generalize initMacros.reverse = ms at hv
  induction ms with
  | nil => cases hv
  | cons m ms ih =>
    obtain ⟨z, u⟩ := m
    simp only [List.cons_append, List.lookup] at hv ⊢
    split
    · rename_i h; rw [h] at hv; exact hv
    · rename_i h; rw [h] at hv; exact ih hv

theorem start_rel (x : σ) : StRel (.bare x) Registered (fun _ => none) (initial builtinNames) (start x) where
  wf := by
    intro i f p hf hp
    cases i with
    | zero =>
      rw [start_frame] at hf
      have := Option.some.inj hf
      subst this
      cases hp
    | succ i => cases hf
  rib := by intro e bs p h; cases h
  inj := by intro e bs p x e' bs' p' x' l h; cases h
  macros := by
    intro f hf q hq
    have hf : f ∈ [(⟨initMacros.reverse ++ registered registry [], none, none⟩ : Frame)] := hf
    simp only [List.mem_singleton] at hf
    subst hf
    rcases List.mem_append.1 hq with hq | hq
    · refine .inl ?_
      show q.1 ∈ macroNames
      have : initMacros.map Prod.fst = macroNames := Pscm.macros_names
      rw [← this]
      exact List.mem_map.2 ⟨q, List.mem_reverse.1 hq, rfl⟩
    · exact .inr (registered_noMacro registry [] (by simp) q hq)
  modMacros := by
    intro m hm q hq
    have hm : m ∈ [(⟨listOf [.sym "pscm-user"], [("%load-path", V.nil)], [], [], none⟩ : Modl)] := hm
    simp only [List.mem_singleton] at hm
    subst hm
    simp only [List.mem_singleton] at hq
    subst hq
    rfl
  curRoot := rfl
  catches := ⟨rfl, rfl⟩
  ext := rfl
  kept := by
    intro y hy
    rw [lookOwn_zero (Pscm.start_frame x)]
    exact start_macro hy
  top := by
    have hno : ∀ y, y ∉ builtinNames → (registered registry []).lookup y = none := fun y hy =>
      (Pscm.lookup_registered registry Pscm.registry_nodup [] y).2 fun r hr e => hy (List.mem_map.2 ⟨r, hr, e⟩)
    refine ⟨_, _, Pscm.start_frame x, rfl, rfl, fun y hy hn => ?_, fun y v hv => ?_, fun y w hw => ?_⟩
    · rw [lookup_initial] at hn
      split at hn
      · cases hn
      · rename_i hy1
        split at hn
        · cases hn
        · rename_i hy2
          have hm : y ∉ initMacros.reverse.map Prod.fst := by
            rw [List.map_reverse, List.mem_reverse, Pscm.macros_names]; exact hy
          unfold topVal
          rw [Pscm.lookup_skip hm, hno y hy1]
          have : (y == "%load-path") = false := by simpa using hy2
          simp only [bare, List.lookup, this]
    · rw [lookup_initial] at hv
      split at hv
      · rename_i hy1
        cases hv
        obtain ⟨r, hr, rfl⟩ := List.mem_map.1 hy1
        exact ⟨_, by unfold topVal; rw [Pscm.start_lookup hr], r.arity, ⟨r, hr, rfl, rfl⟩, rfl⟩
      · rename_i hy1
        split at hv
        · rename_i hy2
          cases hv
          subst hy2
          refine ⟨.nil, ?_, rfl⟩
          unfold topVal
          rw [Pscm.lookup_skip (by rw [List.map_reverse, List.mem_reverse, Pscm.macros_names]; decide), hno _ hy1]
          rfl
        · cases hv
    · by_cases hy : y ∈ builtinNames
      · obtain ⟨r, hr, rfl⟩ := List.mem_map.1 hy
        exact .inr ⟨r.arity, r, hr, rfl, rfl⟩
      · rcases Pscm.mem_of_lookup hw with hm | hm
        · refine .inl ?_
          show y ∈ macroNames
          have : initMacros.map Prod.fst = macroNames := Pscm.macros_names
          rw [← this]
          exact List.mem_map.2 ⟨_, List.mem_reverse.1 hm, rfl⟩
        · rw [hno y hy] at hm
          cases hm

end Pscm.Ref
