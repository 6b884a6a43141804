import Verif.EvExt
/-!
# A frame that nothing refers to

If no value of the state mentions environment `pe` and no other frame has it as parent, then evaluation in another environment neither
reads nor changes frame `pe`, and never produces a reference to it.  `hide_run` says this as an equation: running with the entries of
`pe` replaced by `es` is running and replacing them afterwards.
-/
namespace Pscm.Ev
variable {σ α β : Type}
open EM (stop getSt modSt)

/-- A set `D` of environments, the "visible" ones, and the numbers `U` of frames up to which an execution is followed: within that
bound, a frame created when there are `L` or more is visible. -/
structure Dom where
  D : Nat → Prop
  L : Nat
  U : Nat → Prop
  fresh : ∀ i, L ≤ i → U (i + 1) → D i
  down : ∀ m n, m ≤ n → U n → U m

/-- The value mentions only visible environments. -/
def Clean (pe : Dom) : V → Prop
  | .pair a d => Clean pe a ∧ Clean pe d
  | .vec e => Clean pe e
  | .proc p b e => Clean pe p ∧ Clean pe b ∧ pe.D e
  | .macro p b e => Clean pe p ∧ Clean pe b ∧ pe.D e
  | _ => True

def CleanL (pe : Dom) (xs : List V) : Prop := ∀ x ∈ xs, Clean pe x
def CleanEs (pe : Dom) (es : List (Name × V)) : Prop := ∀ p ∈ es, Clean pe p.2

/-- No part of the state, other than hidden frames themselves, mentions a hidden environment; `Q` says the same of the rest of the
world. -/
structure CleanSt (Q : σ → Prop) (pe : Dom) (s : St σ) : Prop where
  pos : pe.D 0
  lt : pe.L ≤ s.frames.length
  frames : ∀ i f, s.frames[i]? = some f → pe.D i → CleanEs pe f.entries ∧ ∀ p, f.parent = some p → pe.D p
  mods : ∀ m ∈ s.mods, CleanEs pe m.obarray
  proms : ∀ p ∈ s.proms, pe.D p.env ∧ Clean pe p.expr ∧ ∀ v, p.val = some v → Clean pe v
  winds : ∀ w ∈ s.winds, Clean pe w.inG ∧ Clean pe w.outG
  conts : ∀ c ∈ s.conts, ∀ w ∈ c.winds, Clean pe w.inG ∧ Clean pe w.outG
  ext : Q s.ext

/-- What a builtin does invents no reference to a hidden environment, as long as what it is given back has none. -/
def HonestRes (Q : σ → Prop) (pe : Dom) : PrimRes σ → Prop
  | .done (.ok v) x => Q x ∧ Clean pe v
  | .done (.raise _ a) x => Q x ∧ Clean pe a
  | .done _ x => Q x
  | .eval e x k => Q x ∧ Clean pe e ∧ ∀ v y, Clean pe v → Q y → HonestRes Q pe (k v y)

/-- The builtins and the files do not invent references to hidden environments. -/
structure Honest (Q : σ → Prop) (pe : Dom) (P : Prims σ) : Prop where
  call : ∀ n args x, CleanL pe args → Q x → HonestRes Q pe (P.call n args x)
  init : ∀ n, Clean pe (P.init n)
  file : ∀ f x xs, Q x → P.file f x = .exprs xs → CleanL pe xs

/-- The state with the entries of frame `pe` replaced. -/
def repl (pe : Nat) (es : List (Name × V)) (s : St σ) : St σ := { s with frames := updFrame s.frames pe fun _ => es }

/-- The outcome mentions no hidden environment. -/
def GoodOut (pe : Dom) (G : α → Prop) : Out α → Prop
  | .ok a => G a
  | .stop (.err _ _ a) => Clean pe a
  | .stop (.esc _ v) => Clean pe v
  | .stop _ => True

/-- A frame that exists and is not visible. -/
def Hid (pe : Dom) (i : Nat) : Prop := ¬ pe.D i

/-- A frame is never removed. -/
def lenRel (σ : Type) : SimpleRel σ where
  R := fun s s' => s.frames.length ≤ s'.frames.length
  refl := fun _ => Nat.le_refl _
  trans := fun _ _ _ => Nat.le_trans
  push := fun s p f _ _ => by simp
  upd := fun s e g _ => by
    have : (updFrame s.frames e g).length = s.frames.length := by unfold updFrame; split <;> simp
    simp [this]
  mods := fun _ _ _ _ => Nat.le_refl _
  delay := fun _ _ _ => Nat.le_refl _
  forced := fun _ _ _ _ _ _ => Nat.le_refl _
  setExt := fun _ _ => Nat.le_refl _
  ctl := fun _ _ _ _ _ _ _ => Nat.le_refl _

/-- `x` removes no frame. -/
abbrev Mono (x : EM σ α) : Prop := (lenRel σ).toStRel.Pr x

theorem Mono.le {x : EM σ α} (h : Mono x) {s o s'} (hx : x s = some (o, s')) : s.frames.length ≤ s'.frames.length := by
  cases o with
  | ok a => exact h.ok _ _ _ hx
  | stop e => exact h.st _ _ _ hx

/-- `x` neither reads nor changes hidden frames, and its outcome satisfies `G`. -/
structure Keeps (Q : σ → Prop) (pe : Dom) (G : α → Prop) (x : EM σ α) : Prop where
  eqv : (∀ n, pe.U n) → ∀ i s es, Hid pe i → CleanSt Q pe s → x (repl i es s) = (x s).map fun q => (q.1, repl i es q.2)
  good : ∀ s o s', pe.U s'.frames.length → CleanSt Q pe s → x s = some (o, s') → CleanSt Q pe s' ∧ GoodOut pe G o

section
variable {Q : σ → Prop} {pe : Dom}

/-! ## Values -/

theorem CleanL.nil : CleanL pe [] := fun _ h => by cases h
theorem CleanL.cons {x xs} (h : Clean pe x) (k : CleanL pe xs) : CleanL pe (x :: xs) := by
  intro y hy
  rcases List.mem_cons.1 hy with rfl | hy
  · exact h
  · exact k y hy
theorem CleanL.head {x xs} (h : CleanL pe (x :: xs)) : Clean pe x := h x List.mem_cons_self
theorem CleanL.tail {x xs} (h : CleanL pe (x :: xs)) : CleanL pe xs := fun y hy => h y (List.mem_cons_of_mem _ hy)
theorem cleanL_cons {x xs} : CleanL pe (x :: xs) ↔ Clean pe x ∧ CleanL pe xs :=
  ⟨fun h => ⟨h.head, h.tail⟩, fun h => .cons h.1 h.2⟩
theorem cleanL_append {xs ys} : CleanL pe (xs ++ ys) ↔ CleanL pe xs ∧ CleanL pe ys := by
  simp only [CleanL, List.mem_append]
  exact ⟨fun h => ⟨fun x hx => h x (.inl hx), fun x hx => h x (.inr hx)⟩, fun h x hx => hx.elim (h.1 x) (h.2 x)⟩

theorem clean_nodes {v} (h : Clean pe v) : CleanL pe (nodes v) := by
  induction v with
  | pair a d _ ih => exact .cons h.1 (ih h.2)
  | nil => exact .nil
  | _ => simp only [nodes]; exact .cons h .nil

theorem clean_listOf {xs} : Clean pe (listOf xs) ↔ CleanL pe xs := by
  induction xs with
  | nil => simp [listOf, Clean, CleanL]
  | cons x xs ih => simp [listOf, Clean, cleanL_cons, ih]

theorem clean_uncons {v a d} (h : Clean pe v) (hu : uncons v = some (a, d)) : Clean pe a ∧ Clean pe d := by
  cases v <;> simp only [uncons, Option.some.injEq, Prod.mk.injEq, reduceCtorEq] at hu <;> obtain ⟨rfl, rfl⟩ := hu <;>
    first | exact h | exact ⟨h, trivial⟩

theorem clean_quoted {v} : Clean pe (quoted v) ↔ Clean pe v := by simp [quoted, Clean]

theorem cleanL_quoted {xs} (h : CleanL pe xs) : CleanL pe (xs.map quoted) := by
  intro y hy
  obtain ⟨x, hx, rfl⟩ := List.mem_map.1 hy
  exact clean_quoted.2 (h x hx)

theorem clean_mkBody {b} (h : Clean pe b) : Clean pe (mkBody b) := by
  cases b <;> simp_all [mkBody, Clean]

theorem clean_findEntry {es x v} (h : CleanEs pe es) (hv : findEntry x es = some v) : Clean pe v := by
  induction es with
  | nil => cases hv
  | cons p es ih =>
    obtain ⟨k, w⟩ := p
    simp only [findEntry] at hv
    split at hv
    · cases hv; exact h _ List.mem_cons_self
    · exact ih (fun p hp => h p (List.mem_cons_of_mem _ hp)) hv

theorem cleanEs_setEntry {es x v} (h : CleanEs pe es) (hv : Clean pe v) : CleanEs pe (setEntry x v es) := by
  induction es with
  | nil => exact h
  | cons p es ih =>
    obtain ⟨k, w⟩ := p
    have ht : CleanEs pe es := fun p hp => h p (List.mem_cons_of_mem _ hp)
    simp only [setEntry]
    split
    · intro q hq
      rcases List.mem_cons.1 hq with rfl | hq
      · exact hv
      · exact ht q hq
    · intro q hq
      rcases List.mem_cons.1 hq with rfl | hq
      · exact h _ List.mem_cons_self
      · exact ih ht q hq

theorem cleanEs_cons {es x v} (h : CleanEs pe es) (hv : Clean pe v) : CleanEs pe ((x, v) :: es) := by
  intro q hq
  rcases List.mem_cons.1 hq with rfl | hq
  · exact hv
  · exact h q hq

theorem cleanEs_upsert {es x v} (h : CleanEs pe es) (hv : Clean pe v) : CleanEs pe (upsert x v es) := by
  unfold upsert
  split
  · exact cleanEs_setEntry h hv
  · exact cleanEs_cons h hv

/-! ## Frames -/

theorem repl_frame {s : St σ} {k es i} (h : i ≠ k) : (repl k es s).frames[i]? = s.frames[i]? := by
  simp only [repl, getElem?_updFrame, h, if_false]
  cases s.frames[i]? <;> rfl

theorem Hid.ne {k i} (h : Hid pe k) (hi : pe.D i) : i ≠ k := fun hh => h (hh ▸ hi)

theorem repl_own {s : St σ} {k es i x} (h : i ≠ k) : lookOwn (repl k es s).frames i x = lookOwn s.frames i x := by
  simp only [lookOwn, repl_frame h]

theorem repl_length {s : St σ} {k es} : (repl k es s).frames.length = s.frames.length := by
  unfold repl updFrame
  split <;> simp

theorem repl_findFrame {s : St σ} (c : CleanSt Q pe s) {k es x} (hk : Hid pe k) (n i : Nat) (h : pe.D i) :
    findFrame (repl k es s).frames x n i = findFrame s.frames x n i := by
  induction n generalizing i with
  | zero => rfl
  | succ n ih =>
    simp only [findFrame, repl_frame (hk.ne h)]
    cases hf : s.frames[i]? with
    | none => rfl
    | some f =>
      simp only
      split
      · rfl
      · cases hp : f.parent with
        | none => rfl
        | some p => exact ih p ((c.frames i f hf h).2 p hp)

theorem findFrame_ne {s : St σ} (c : CleanSt Q pe s) {x} (n i j : Nat) (h : pe.D i)
    (hf : findFrame s.frames x n i = some j) : pe.D j := by
  induction n generalizing i with
  | zero => cases hf
  | succ n ih =>
    simp only [findFrame] at hf
    cases hfi : s.frames[i]? with
    | none => rw [hfi] at hf; cases hf
    | some f =>
      rw [hfi] at hf
      simp only at hf
      split at hf
      · cases hf; exact h
      · cases hp : f.parent with
        | none => rw [hp] at hf; cases hf
        | some p =>
          rw [hp] at hf
          exact ih p ((c.frames i f hfi h).2 p hp) hf

theorem repl_chainModule {s : St σ} (c : CleanSt Q pe s) {k es} (hk : Hid pe k) (n i : Nat) (h : pe.D i) :
    chainModule (repl k es s).frames n i = chainModule s.frames n i := by
  induction n generalizing i with
  | zero => rfl
  | succ n ih =>
    simp only [chainModule, repl_frame (hk.ne h)]
    cases hf : s.frames[i]? with
    | none => rfl
    | some f =>
      simp only
      cases f.modl with
      | some m => rfl
      | none =>
        cases hp : f.parent with
        | none => rfl
        | some p => exact ih p ((c.frames i f hf h).2 p hp)

theorem repl_envSearch {s : St σ} (c : CleanSt Q pe s) {k es x} (hk : Hid pe k) (e : Nat) (h : pe.D e) :
    envSearch (repl k es s) e x = envSearch s e x := by
  have h1 : lookChain (repl k es s).frames e x = lookChain s.frames e x := by
    unfold lookChain
    rw [repl_findFrame c hk _ _ h]
    cases hf : findFrame s.frames x (e + 1) e with
    | none => rfl
    | some i => exact repl_own (hk.ne (findFrame_ne c _ _ _ h hf))
  have h2 : chainValue (repl k es s) e x = chainValue s e x := by
    unfold chainValue
    rw [repl_chainModule c hk _ _ h]
    rfl
  unfold envSearch
  simp only [h1, h2, repl_own (hk.ne c.pos)]
  rfl

theorem repl_opValue {s : St σ} (c : CleanSt Q pe s) {k es x} (hk : Hid pe k) (e : Nat) (h : pe.D e) :
    opValue (repl k es s) e x = opValue s e x := by
  unfold opValue
  simp only [repl_own (hk.ne c.pos), repl_own (hk.ne h)]
  rfl

theorem clean_own {s : St σ} (c : CleanSt Q pe s) {e x v} (h : pe.D e) (hv : lookOwn s.frames e x = some v) :
    Clean pe v := by
  unfold lookOwn at hv
  split at hv
  · rename_i f hf; exact clean_findEntry (c.frames _ _ hf h).1 hv
  · cases hv

theorem clean_ob {s : St σ} (c : CleanSt Q pe s) {m x v} (hv : obLookup s.mods m x = some v) : Clean pe v := by
  unfold obLookup at hv
  split at hv
  · rename_i f hf; exact clean_findEntry (c.mods _ (List.mem_of_getElem? hf)) hv
  · cases hv

theorem clean_search {s : St σ} (c : CleanSt Q pe s) {m x v} (hv : searchModule s.mods s.root m x = some v) : Clean pe v := by
  unfold searchModule at hv
  split at hv
  · exact clean_ob c hv
  · cases hv

theorem clean_envSearch {s : St σ} (c : CleanSt Q pe s) {e x v} (h : pe.D e) (hv : envSearch s e x = some v) : Clean pe v := by
  have h0 : pe.D 0 := c.pos
  unfold envSearch at hv
  cases h1 : lookChain s.frames e x with
  | some w =>
    rw [h1] at hv; cases hv
    unfold lookChain at h1
    split at h1
    · rename_i i hi; exact clean_own c (findFrame_ne c _ _ _ h hi) h1
    · cases h1
  | none =>
    rw [h1] at hv
    simp only at hv
    cases h2 : chainValue s e x with
    | some w =>
      rw [h2] at hv; cases hv
      unfold chainValue at h2
      split at h2
      · exact clean_search c h2
      · cases h2
    | none =>
      rw [h2] at hv
      simp only at hv
      cases h3 : searchModule s.mods s.root s.cur x with
      | some w => rw [h3] at hv; cases hv; exact clean_search c h3
      | none =>
        rw [h3] at hv
        simp only at hv
        split at hv
        · exact clean_own c h0 hv
        · cases hv

theorem clean_opValue {s : St σ} (c : CleanSt Q pe s) {e x v} (h : pe.D e) (hv : opValue s e x = some v) : Clean pe v := by
  have h0 : pe.D 0 := c.pos
  unfold opValue at hv
  split at hv
  · rename_i w hw; cases hv; exact clean_own c h hw
  · split at hv
    · rename_i w hw
      cases hv
      split at hw
      · split at hw
        · rename_i u hu; cases hw; exact clean_ob c hu
        · split at hw
          · cases hw
          · split at hw
            · exact clean_ob c hw
            · cases hw
      · cases hw
    · split at hv
      · rename_i w hw
        split at hv
        · cases hv; exact clean_own c h0 hw
        · cases hv
      · cases hv

/-! ## State changes -/

theorem updFrame_comm (fr : List Frame) (i j : Nat) (g h) (hij : i ≠ j) :
    updFrame (updFrame fr i g) j h = updFrame (updFrame fr j h) i g := by
  apply List.ext_getElem?
  intro k
  simp only [getElem?_updFrame]
  cases fr[k]? with
  | none => rfl
  | some f =>
    by_cases h1 : k = i
    · have h2 : k ≠ j := fun hh => hij (h1 ▸ hh)
      simp [h1, hij]
    · simp [h1]

/-- A state change that hidden frames do not take part in. -/
structure Inert (Q : σ → Prop) (pe : Dom) (g : St σ → St σ) : Prop where
  eqv : ∀ i s es, Hid pe i → CleanSt Q pe s → g (repl i es s) = repl i es (g s)
  good : ∀ s, CleanSt Q pe s → CleanSt Q pe (g s)

theorem updFrame_length (fr : List Frame) (e g) : (updFrame fr e g).length = fr.length := by
  unfold updFrame
  split <;> simp

theorem clean_updFrame {s : St σ} (c : CleanSt Q pe s) {e g} (hg : pe.D e → ∀ es, CleanEs pe es → CleanEs pe (g es)) :
    CleanSt Q pe { s with frames := updFrame s.frames e g } := by
  refine { c with lt := ?_, frames := ?_ }
  · rw [updFrame_length]; exact c.lt
  · intro i f hf hi
    simp only [getElem?_updFrame] at hf
    cases hfi : s.frames[i]? with
    | none => rw [hfi] at hf; cases hf
    | some f0 =>
      rw [hfi] at hf
      obtain ⟨h1, h2⟩ := c.frames i f0 hfi hi
      simp only [Option.map_some, Option.some.injEq] at hf
      subst hf
      by_cases he : i = e
      · subst he; simp only [if_true]; exact ⟨hg hi _ h1, h2⟩
      · simp only [he, if_false]; exact ⟨h1, h2⟩

theorem repl_upd {s : St σ} {k es e g} (h : e ≠ k) :
    ({ repl k es s with frames := updFrame (repl k es s).frames e g } : St σ) =
      repl k es { s with frames := updFrame s.frames e g } := by
  simp only [repl]
  rw [updFrame_comm _ _ _ _ _ (Ne.symm h)]

theorem clean_obSet {s : St σ} (c : CleanSt Q pe s) {m x v} (hv : Clean pe v) :
    CleanSt Q pe { s with mods := obSet s.mods m x v } := by
  refine { c with mods := ?_ }
  intro md hmd
  simp only [obSet] at hmd
  split at hmd
  · rename_i m0 hm0
    rcases List.mem_or_eq_of_mem_set hmd with h | rfl
    · exact c.mods md h
    · exact cleanEs_upsert (c.mods _ (List.mem_of_getElem? hm0)) hv
  · exact c.mods md hmd

theorem inert_insertOwn {e x v} (h : pe.D e) (hv : Clean pe v) :
    Inert Q pe (fun s => ({ s with frames := insertOwn s.frames e x v } : St σ)) :=
  ⟨fun i s es hk _ => repl_upd (hk.ne h), fun s c => clean_updFrame c fun _ _ hes => cleanEs_upsert hes hv⟩

theorem inert_insertDeep {e x v} (h : pe.D e) (hv : Clean pe v) :
    Inert Q pe (fun s => ({ s with frames := insertDeep s.frames e x v } : St σ)) := by
  constructor
  · intro i s es hk c
    simp only [insertDeep, repl_findFrame c hk _ _ h]
    cases hf : findFrame s.frames x (e + 1) e with
    | none => exact repl_upd (hk.ne h)
    | some i => exact repl_upd (hk.ne <| findFrame_ne c _ _ _ h hf)
  · intro s c
    simp only [insertDeep]
    cases hf : findFrame s.frames x (e + 1) e with
    | none => exact clean_updFrame c fun _ _ hes => cleanEs_cons hes hv
    | some i => exact clean_updFrame c fun _ _ hes => cleanEs_setEntry hes hv

theorem inert_obSet {m x v} (hv : Clean pe v) : Inert Q pe (fun s => ({ s with mods := obSet s.mods m x v } : St σ)) :=
  ⟨fun _ _ _ _ _ => rfl, fun s c => clean_obSet c hv⟩

theorem inert_assign {e x v} (h : pe.D e) (hv : Clean pe v) : Inert Q pe (fun s : St σ => assignSt s e x v) := by
  constructor
  · intro i s es hk c
    simp only [assignSt, repl_findFrame c hk _ _ h]
    cases hf : findFrame s.frames x (e + 1) e with
    | some i => exact repl_upd (hk.ne <| findFrame_ne c _ _ _ h hf)
    | none =>
      simp only
      have : findModule (repl i es s).mods (repl i es s).root (repl i es s).cur x = findModule s.mods s.root s.cur x := rfl
      rw [this]
      cases hm : findModule s.mods s.root s.cur x with
      | some m => rfl
      | none => exact repl_upd (hk.ne h)
  · intro s c
    simp only [assignSt]
    split
    · exact clean_updFrame c fun _ _ hes => cleanEs_setEntry hes hv
    · split
      · exact clean_obSet c hv
      · exact clean_updFrame c fun _ _ hes => cleanEs_upsert hes hv

theorem inert_define {e x v} (h : pe.D e) (hv : Clean pe v) : Inert Q pe (fun s : St σ => defineSt s e x v) := by
  constructor
  · intro i s es hk c
    have h0 : pe.D 0 := c.pos
    simp only [defineSt, repl_frame (hk.ne h)]
    cases hf : s.frames[e]? with
    | none => rfl
    | some f =>
      simp only
      cases f.parent with
      | some p =>
        simp only
        cases f.modl with
        | some m => rfl
        | none => exact repl_upd (hk.ne h)
      | none =>
        simp only [repl_own (hk.ne h0)]
        split
        · exact repl_upd (hk.ne h0)
        · rfl
  · intro s c
    simp only [defineSt]
    split
    · exact c
    · split
      · split
        · exact clean_obSet c hv
        · exact clean_updFrame c fun _ _ hes => cleanEs_upsert hes hv
      · split
        · exact clean_updFrame c fun _ _ hes => cleanEs_setEntry hes hv
        · exact clean_obSet c hv

theorem inert_defineProc {x v} (hv : Clean pe v) : Inert Q pe (fun s : St σ => defineProcSt s x v) :=
  ⟨fun _ _ _ _ _ => rfl, fun s c => clean_obSet c hv⟩

theorem inert_defineMacro {e x v} (h : pe.D e) (hv : Clean pe v) : Inert Q pe (fun s : St σ => defineMacroSt s e x v) := by
  constructor
  · intro i s es hk c
    have h0 : pe.D 0 := c.pos
    have hd := (inert_insertDeep (Q := Q) (x := x) h hv).eqv i s es hk c
    simp only [defineMacroSt, repl_frame (hk.ne h)]
    show (if s.cur ≠ s.root then _ else _) = repl i es (if s.cur ≠ s.root then _ else _)
    split
    · rfl
    · cases hf : s.frames[e]? with
      | none => rfl
      | some f =>
        simp only
        cases f.parent with
        | some p => exact hd
        | none =>
          simp only [repl_own (hk.ne h0)]
          split
          · exact repl_upd (hk.ne h0)
          · exact hd
  · intro s c
    have hd := (inert_insertDeep (Q := Q) (x := x) h hv).good s c
    simp only [defineMacroSt]
    split
    · exact clean_obSet c hv
    · split
      · exact c
      · split
        · exact hd
        · split
          · exact clean_updFrame c fun _ _ hes => cleanEs_setEntry hes hv
          · exact hd

/-- Module obarrays that are clean. -/
def CleanMods (pe : Dom) (ms : List Modl) : Prop := ∀ m ∈ ms, CleanEs pe m.obarray

theorem cleanMods_set {ms : List Modl} {m} {md : Modl} (h : CleanMods pe ms) (hm : CleanEs pe md.obarray) : CleanMods pe (ms.set m md) := by
  intro x hx
  rcases List.mem_or_eq_of_mem_set hx with k | rfl
  · exact h x k
  · exact hm

theorem cleanMods_get {ms : List Modl} {m : Nat} {md : Modl} (h : CleanMods pe ms) (hm : ms[m]? = some md) : CleanEs pe md.obarray :=
  h _ (List.mem_of_getElem? hm)

theorem cleanMods_obSet {ms : List Modl} {m x v} (h : CleanMods pe ms) (hv : Clean pe v) : CleanMods pe (obSet ms m x v) := by
  unfold obSet
  split
  · rename_i md hmd; exact cleanMods_set h (cleanEs_upsert (cleanMods_get h hmd) hv)
  · exact h

theorem cleanMods_use {ms : List Modl} {m u} (h : CleanMods pe ms) : CleanMods pe (useModule ms m u) := by
  unfold useModule
  split
  · rename_i md hmd; exact cleanMods_set h (cleanMods_get h hmd :)
  · exact h

theorem cleanEs_exports {ob : List (Name × V)} (h : CleanEs pe ob) (xs : List Name) : CleanEs pe (exportsObarray ob xs) := by
  induction xs with
  | nil => intro p hp; cases hp
  | cons x xs ih =>
    simp only [exportsObarray]
    split
    · rename_i v hv; exact cleanEs_upsert ih (clean_findEntry h hv)
    · exact ih

theorem cleanMods_iface {ms : List Modl} {m ms' i} (h : CleanMods pe ms) (he : ensureIface ms m = (ms', i)) : CleanMods pe ms' := by
  unfold ensureIface at he
  split at he
  · cases he; exact h
  · rename_i md hmd
    split at he
    · cases he; exact h
    · cases he
      intro x hx
      rcases List.mem_append.1 hx with hx | hx
      · have := cleanMods_set (m := m) (md := { md with pub := some ms.length }) h (cleanMods_get h hmd :)
        exact this x hx
      · simp only [List.mem_singleton] at hx
        subst hx
        exact cleanEs_exports (cleanMods_get h hmd) _

theorem cleanMods_lookup {ms : List Modl} {m x v} (h : CleanMods pe ms) (hv : obLookup ms m x = some v) : Clean pe v := by
  unfold obLookup at hv
  split at hv
  · rename_i f hf; exact clean_findEntry (cleanMods_get h hf) hv
  · cases hv

theorem cleanMods_search {ms : List Modl} {r m x v} (h : CleanMods pe ms) (hv : searchModule ms r m x = some v) : Clean pe v := by
  unfold searchModule at hv
  split at hv
  · exact cleanMods_lookup h hv
  · cases hv

theorem cleanMods_export {ms : List Modl} {r m x} (h : CleanMods pe ms) : CleanMods pe (exportSym ms r m x) := by
  unfold exportSym
  split
  · exact h
  · rename_i md hmd
    have h1 := cleanMods_set (m := m) (md := { md with exports := x :: md.exports }) h (cleanMods_get h hmd :)
    simp only
    split
    · rename_i ms2 i he
      have h2 := cleanMods_iface h1 he
      split
      · rename_i v hv; exact cleanMods_obSet h2 (cleanMods_search h2 hv)
      · exact h2
    · rename_i ms2 he
      exact cleanMods_iface h1 he

theorem cleanMods_exportAll {ms : List Modl} {r m xs} (h : CleanMods pe ms) : CleanMods pe (exportAll ms r m xs) := by
  fun_induction exportAll ms r m xs with
  | case1 => exact h
  | case2 ms x xs ih => exact ih (cleanMods_export h)
  | case3 ms x xs _ ih => exact ih h

/-- A change of the modules that depends only on modules. -/
theorem inert_mods {g : List Modl → Nat → Nat → List Modl} (h : ∀ ms c r, CleanMods pe ms → CleanMods pe (g ms c r)) :
    Inert Q pe (fun s => ({ s with mods := g s.mods s.cur s.root } : St σ)) :=
  ⟨fun _ _ _ _ _ => rfl, fun s c => { c with mods := h _ _ _ c.mods }⟩

end
end Pscm.Ev
