import Verif.OptMacro3
import Verif.MiscProps
import Verif.DebugProps
/-!
# C139: the option macros

`read-set!`, `read-enable`, `read-disable`, and the same for `debug`, are macros that the initialisation defines.  Here: what a use of one of them does, down to the
one call of the builtin (`read-options-interface`, `debug-options-interface`) it makes, for literal arguments; and that a session of such uses changes the options
the way the models of the options (C83, C110) say.
-/
namespace Pscm.Ref
open Pscm.Ev hiding Name Form evalForm

/-! ## Specification -/

/-- A use of one of the macros of a family. -/
inductive Request
  /-- `(read-set! opt val)` -/
  | set (opt : Name) (v : Lit)
  /-- `(read-enable flag ...)` -/
  | enable (vs : List Lit)
  /-- `(read-disable 'flag ...)` -/
  | disable (xs : List Name)

/-- A literal as it is written: a constant, or `'x`. -/
def Lit.form : Lit → V
  | .const c => c.toV
  | .sym x => listOf [.sym "quote", .sym x]

/-- The request as it is written. -/
def Request.form (fam : Family) : Request → V
  | .set opt v => listOf [.sym fam.set, .sym opt, v.form]
  | .enable vs => .pair (.sym fam.enable) (listOf (vs.map Lit.form))
  | .disable xs => .pair (.sym fam.disable) (listOf (xs.map fun x => listOf [.sym "quote", .sym x]))

/-- The options and flags are not the names of the macros themselves. -/
def Request.Ok : Request → Prop
  | .set opt v => opt ∉ macroNames ∧ v.Ok
  | .enable vs => ∀ v ∈ vs, v.Ok
  | .disable xs => ∀ x ∈ xs, x ∉ macroNames

/-- The list the request passes on, when the options are `os`: with the option and its value at the end; with the flags in front; without the flags. -/
def Request.list (os : List Datum) : Request → List Datum
  | .set opt v => os ++ [.sym opt, v.datum]
  | .enable vs => vs.map Lit.datum ++ os
  | .disable xs => os.filter fun d => !decide (∃ x ∈ xs, d = .sym x)

variable {σ : Type}

/-- A list of data as a value. -/
def dataV (os : List Datum) : V := listOf (os.map Datum.toV)

/-- A state in which the macros can be used: one that stands for a state of the reference semantics (C138) in which the builtins the macros use have not been
redefined.  The initial state is one (`ready_start`), and the macros lead from one to the next. -/
def OptionsReady (s : St σ) : Prop := ∃ W st, StRel (.bare s.ext) Registered W st s ∧ Needs st.globals

/-! The options themselves, as the models of C83 and C110 have them. -/

/-- An option list of `read-options-interface` as data. -/
def readDatum : Misc.Arg → Datum
  | .bool b => .bool b
  | .sym x => .sym x
  | .quote a => .pair (.sym "quote") (.pair (readDatum a) .nil)
  | .other k => .num k

/-- An option list of `debug-options-interface` as data. -/
def debugDatum : Dbg.Arg → Datum
  | .bool b => .bool b
  | .num n => .num n
  | .sym x => .sym x
  | .quote a => .pair (.sym "quote") (.pair (debugDatum a) .nil)
  | .other k => .pair (.num k) .nil

/-- The answer `q` of the model of the options is the answer of the builtin: the value, or an error, and the new options. -/
def AnswerIs {α ω : Type} (datum : α → Datum) (get : σ → ω) (c : PrimRes σ) : Res (List α) × ω → Prop
  | (.ok l, o) => ∃ x', c = .done (.ok (dataV (l.map datum))) x' ∧ get x' = o
  | (.err _, o) => ∃ k a x', c = .done (.raise k a) x' ∧ get x' = o
  | _ => True

/-- The builtins of the options do what their models say; the options are `get x` when the state of the builtins is `x`. -/
structure HasOptions (P : Prims σ) (get : σ → Misc.Opts × Dbg.Opts) : Prop where
  readShow : ∀ x, P.call "read-options-interface" [] x = .done (.ok (dataV ((Misc.setting (get x).1).map readDatum))) x
  debugShow : ∀ x, P.call "debug-options-interface" [] x = .done (.ok (dataV ((Dbg.setting (get x).2).map debugDatum))) x
  read : ∀ x as, AnswerIs readDatum get (P.call "read-options-interface" [dataV (as.map readDatum)] x)
    ((Misc.interface (get x).1 as).1, ((Misc.interface (get x).1 as).2, (get x).2))
  debug : ∀ x as, AnswerIs debugDatum get (P.call "debug-options-interface" [dataV (as.map debugDatum)] x)
    ((Dbg.interface (get x).2 as).1, ((get x).1, (Dbg.interface (get x).2 as).2))

/-- Values for options: booleans, symbols, numbers. -/
inductive Simple
  | bool (b : Bool)
  | sym (x : Name)
  | num (n : Nat)

/-- A use of a macro. -/
inductive Change
  | set (opt : Name) (v : Simple)
  | enable (vs : List Simple)
  | disable (xs : List Name)

def Simple.lit : Simple → Lit
  | .bool b => .const (.bool b)
  | .sym x => .sym x
  | .num n => .const (.num n)

def Simple.read : Simple → Misc.Arg
  | .bool b => .bool b
  | .sym x => .sym x
  | .num n => .other n

def Simple.debug : Simple → Dbg.Arg
  | .bool b => .bool b
  | .sym x => .sym x
  | .num n => .num n

def Change.request : Change → Request
  | .set opt v => .set opt v.lit
  | .enable vs => .enable (vs.map Simple.lit)
  | .disable xs => .disable xs

/-- The operation on the read options (C83). -/
def Change.read : Change → Misc.OptOp
  | .set opt v => .set opt v.read
  | .enable vs => .enable (vs.map Simple.read)
  | .disable xs => .disable (xs.map .sym)

/-- The operation on the debug options (C110). -/
def Change.debug : Change → Dbg.Op
  | .set opt v => .set opt v.debug
  | .enable vs => .enable (vs.map Simple.debug)
  | .disable xs => .disable (xs.map .sym)

/-- The names in the request are not those of the macros. -/
def Change.Ok (c : Change) : Prop := c.request.Ok

/-- A session: changes of the read options (`true`) and of the debug options (`false`), none of which is an error. -/
inductive Session : List (Bool × Change) → Misc.Opts × Dbg.Opts → Misc.Opts × Dbg.Opts → Prop
  | nil {o} : Session [] o o
  | read {c cs o d l o1 o2} : c.Ok → c.read.run o = (.ok l, o1) → Session cs (o1, d) o2 → Session ((true, c) :: cs) (o, d) o2
  | debug {c cs o d l d1 o2} : c.Ok → Dbg.step d c.debug = (.ok l, d1) → Session cs (o, d1) o2 → Session ((false, c) :: cs) (o, d) o2

/-- The session as a program. -/
def sessionForms (cs : List (Bool × Change)) : List V := cs.map fun c => c.2.request.form (if c.1 then readFamily else debugFamily)

/-- Each form has a value, one after the other. -/
inductive EachValue (P : Prims σ) : List V → St σ → St σ → Prop
  | nil {s} : EachValue P [] s s
  | cons {f fs s v s1 s2} : Evals P 0 f s (.ok v) s1 → EachValue P fs s1 s2 → EachValue P (f :: fs) s s2

end Pscm.Ref

namespace Pscm
open Pscm.Ref
open Pscm.Ev hiding Name Form evalForm
variable {σ : Type} {P : Prims σ} {F : FArith} {s : St σ}

attribute [local irreducible] registered registry

theorem ready_start (x : σ) : OptionsReady (start x) := by
  refine ⟨_, _, start_rel x, fun y hy => ?_⟩
  have h : ∀ y ∈ neededNames, y ∈ builtinNames := by decide +kernel
  rw [lookup_initial, if_pos (h y hy)]

theorem OptionsReady.withExt (h : OptionsReady s) (x : σ) : OptionsReady { s with ext := x } := by
  obtain ⟨W, st, h, hG⟩ := h
  exact ⟨W, st, ⟨h.wf, h.rib, h.inj, h.macros, h.modMacros, h.curRoot, h.catches, rfl, h.kept, h.top⟩, hG⟩

theorem stays_eq (xs : List Ref.Name) (d : Datum) : stays xs d = !decide (∃ x ∈ xs, d = .sym x) := by
  unfold stays
  congr 1
  rw [Bool.eq_iff_iff]
  simp only [List.contains_iff_mem, List.mem_map, decide_eq_true_eq]
  constructor
  · rintro ⟨x, h, rfl⟩; exact ⟨x, h, rfl⟩
  · rintro ⟨x, h, rfl⟩; exact ⟨x, h, rfl⟩

theorem lit_form (v : Lit) : v.form = v.exp.toV := by cases v <;> simp [Lit.form, Lit.exp, Exp.toV, Datum.toV]

theorem rel_data {W : World} {os : List Datum} {w : V} (h : VRel Registered W (Ref.Val.list (os.map Datum.toVal)) w) : w = dataV os := by
  induction os generalizing w with
  | nil => exact h
  | cons d os ih =>
    obtain ⟨a, r, rfl, ha, hr⟩ := h
    have hd : a = d.toV := by
      clear ih hr
      induction d generalizing a with
      | pair x y ihx ihy =>
        obtain ⟨p, q, rfl, hp, hq⟩ := ha
        rw [ihx _ hp, ihy _ hq]
        rfl
      | _ => exact ha
    rw [hd, ih hr]
    rfl

/-- **C139** The use of an option macro is one call of the builtin of its family, on the list the request stands for, in a state with the same options. -/
theorem c139_use (hP : HasStd P F) (hs : OptionsReady s) {fam : Family} (hfam : fam = readFamily ∨ fam = debugFamily) {os : List Datum}
    (hq : P.call fam.builtin [] s.ext = .done (.ok (dataV os)) s.ext) {r : Request} (hr : r.Ok) :
    ∃ s1, OptionsReady s1 ∧ s1.ext = s.ext ∧
      ∀ o s', Evals P 0 (r.form fam) s o s' ↔ runPrim (run P) (P.call fam.builtin [dataV (r.list os)] s.ext) s1 = some (o, s') := by
  obtain ⟨W, st, h, hG⟩ := hs
  obtain ⟨⟨hm1, hm2, hm3, hf⟩, hl1, hl2, hl3⟩ := family_macros hfam
  have hI : Implements (.bare s.ext) P Registered (withOptions fam.builtin os) := options_implements hP hf hq
  have hg := hG fam.builtin (List.mem_append_right _ hf)
  have hfin : ∀ {W' : World} {w : V} {s1 : St σ} {st' : Store}, StRel (.bare s.ext) Registered W' st' s1 → st'.globals = st.globals →
      VRel Registered W' (Ref.Val.list ((r.list os).map Datum.toVal)) w → (∀ o s', Evals P 0 (r.form fam) s o s' ↔ runPrim (run P) (P.call fam.builtin [w] s1.ext) s1 = some (o, s')) →
      ∃ s1, OptionsReady s1 ∧ s1.ext = s.ext ∧
        ∀ o s', Evals P 0 (r.form fam) s o s' ↔ runPrim (run P) (P.call fam.builtin [dataV (r.list os)] s.ext) s1 = some (o, s') := by
    intro W' w s1 st' h1 hgl hw hu
    have he : s1.ext = s.ext := h1.ext
    refine ⟨s1, ⟨W', st', by rw [show s1.ext = s.ext from he]; exact h1, by rw [hgl]; exact hG⟩, he, fun o s' => ?_⟩
    rw [hu, he, rel_data hw]
  have hnv : ∀ v : Lit, isMacro v.exp.toV = false := by
    intro v
    cases v with
    | const c => cases c <;> rfl
    | sym x => rfl
  cases r with
  | set opt v =>
    obtain ⟨ho, hv⟩ := hr
    obtain ⟨W', w, s1, h1, h2, h3⟩ := option_use (forms := [.sym opt, v.exp.toV]) (arg := setArg fam.builtin opt v) hI h hm1 hl1 (by decide) rfl
      (by
        intro q hq
        simp only [callBindings, List.zip_cons_cons, List.zip_nil_right, List.append_nil, List.reverse_cons, List.reverse_nil, List.nil_append, List.cons_append,
          List.mem_cons, List.not_mem_nil, or_false] at hq
        rcases hq with rfl | rfl
        · exact hnv v
        · rfl)
      (by
        intro S hwf hS
        exact set_gives hf (run_param (isVar_of (by decide)) hS rfl hwf) (run_param (isVar_of (by decide)) hS rfl hwf))
      (set_noHead hf ho hv) hf hg (set_ok hf opt v) (set_means hf hG opt v)
    refine hfin h1 rfl h2 fun o s' => ?_
    rw [← h3 o s', Request.form, lit_form]
    rfl
  | enable vs =>
    obtain ⟨W', w, s1, h1, h2, h3⟩ := option_use (forms := vs.map fun v => v.exp.toV) (arg := enableArg fam.builtin vs) hI h hm2 hl2 (by decide) (Nat.zero_le _)
      (by
        intro q hq
        simp only [callBindings, List.zip_nil_left, List.nil_append, List.reverse_cons, List.reverse_nil, List.mem_cons, List.not_mem_nil, or_false] at hq
        subst hq
        cases vs <;> rfl)
      (by
        intro S hwf hS
        exact enable_gives hf (run_param (isVar_of (by decide)) hS rfl hwf))
      (enable_noHead hf hr) hf hg (enable_ok hf vs) (enable_means hf hG vs)
    refine hfin h1 rfl h2 fun o s' => ?_
    rw [← h3 o s', Request.form, show Lit.form = fun v => v.exp.toV from funext lit_form]
    rfl
  | disable xs =>
    obtain ⟨cells, hm⟩ := disable_means (os := os) hf hG xs
    obtain ⟨W', w, s1, h1, h2, h3⟩ := option_use (forms := xs.map fun x => listOf [.sym "quote", .sym x]) (arg := disableArg fam.builtin xs) hI h hm3 hl3 (by decide)
      (Nat.zero_le _)
      (by
        intro q hq
        simp only [callBindings, List.zip_nil_left, List.nil_append, List.reverse_cons, List.reverse_nil, List.mem_cons, List.not_mem_nil, or_false] at hq
        subst hq
        cases xs <;> rfl)
      (by
        intro S hwf hS
        exact disable_gives hf (run_param (isVar_of (by decide)) hS rfl hwf))
      (disable_noHead hf hr) hf hg (disable_ok hf xs) hm
    refine hfin (w := w) h1 rfl ?_ fun o s' => ?_
    · rw [show stays xs = fun d => !decide (∃ x ∈ xs, d = .sym x) from funext (stays_eq xs)] at h2
      exact h2
    · rw [← h3 o s', Request.form]
      rfl

/-- **C139**, when the builtin returns: so does the use of the macro, with the same value; nothing is left to chance. -/
theorem c139_value (hP : HasStd P F) (hs : OptionsReady s) {fam : Family} (hfam : fam = readFamily ∨ fam = debugFamily) {os : List Datum}
    (hq : P.call fam.builtin [] s.ext = .done (.ok (dataV os)) s.ext) {r : Request} (hr : r.Ok) {v : V} {x' : σ}
    (hv : P.call fam.builtin [dataV (r.list os)] s.ext = .done (.ok v) x') :
    ∃ s', OptionsReady s' ∧ s'.ext = x' ∧ ∀ o t, Evals P 0 (r.form fam) s o t ↔ o = .ok v ∧ t = s' := by
  obtain ⟨s1, h1, he, hu⟩ := c139_use hP hs hfam hq hr
  refine ⟨{ s1 with ext := x' }, OptionsReady.withExt h1 x', rfl, fun o t => ?_⟩
  rw [hu, hv]
  show some (Out.ok v, { s1 with ext := x' }) = some (o, t) ↔ _
  rw [Option.some.injEq, Prod.mk.injEq, eq_comm, @eq_comm _ t]

/-- **C139**, when the builtin signals an error: so does the use of the macro. -/
theorem c139_error (hP : HasStd P F) (hs : OptionsReady s) {fam : Family} (hfam : fam = readFamily ∨ fam = debugFamily) {os : List Datum}
    (hq : P.call fam.builtin [] s.ext = .done (.ok (dataV os)) s.ext) {r : Request} (hr : r.Ok) {k : Ev.Name} {a : V} {x' : σ}
    (hv : P.call fam.builtin [dataV (r.list os)] s.ext = .done (.raise k a) x') :
    ∃ s', OptionsReady s' ∧ s'.ext = x' ∧ ∀ o t, Evals P 0 (r.form fam) s o t ↔ o = .stop (.err none k a) ∧ t = s' := by
  obtain ⟨s1, h1, he, hu⟩ := c139_use hP hs hfam hq hr
  refine ⟨{ s1 with ext := x' }, OptionsReady.withExt h1 x', rfl, fun o t => ?_⟩
  rw [hu, hv]
  have hc : s1.catches = [] := by obtain ⟨W, st, h, _⟩ := h1; exact h.catches.1
  have ht : throwStop s1 k a = .err none k a := by unfold throwStop; rw [hc]; rfl
  show some (Out.stop (throwStop s1 k a), { s1 with ext := x' }) = some (o, t) ↔ _
  rw [ht, Option.some.injEq, Prod.mk.injEq, eq_comm, @eq_comm _ t]

/-! ## The models of the options -/

theorem simple_read (v : Simple) : readDatum v.read = v.lit.datum := by cases v <;> rfl
theorem simple_debug (v : Simple) : debugDatum v.debug = v.lit.datum := by cases v <;> rfl

theorem readDatum_sym {a : Misc.Arg} {x : Ref.Name} : readDatum a = .sym x ↔ a = .sym x := by
  cases a <;> simp [readDatum]

theorem debugDatum_sym {a : Dbg.Arg} {x : Ref.Name} : debugDatum a = .sym x ↔ a = .sym x := by
  cases a <;> simp [debugDatum]

/-- The list of the read options a change passes on. -/
def readList (o : Misc.Opts) : Change → List Misc.Arg
  | .set opt v => Misc.setting o ++ [.sym opt, v.read]
  | .enable vs => vs.map Simple.read ++ Misc.setting o
  | .disable xs => (Misc.setting o).filter fun x => !(xs.map Misc.Arg.sym).contains x

def debugList (o : Dbg.Opts) : Change → List Dbg.Arg
  | .set opt v => Dbg.setting o ++ [.sym opt, v.debug]
  | .enable vs => vs.map Simple.debug ++ Dbg.setting o
  | .disable xs => (Dbg.setting o).filter fun x => !(xs.map Dbg.Arg.sym).contains x

theorem read_run (o : Misc.Opts) (c : Change) : c.read.run o = Misc.interface o (readList o c) := by cases c <;> rfl
theorem debug_run (o : Dbg.Opts) (c : Change) : Dbg.step o c.debug = Dbg.interface o (debugList o c) := by cases c <;> rfl

theorem filter_map_eq {α : Type} (g : α → Datum) (sym : Ref.Name → α) [BEq α] [LawfulBEq α] (hg : ∀ a x, g a = .sym x ↔ a = sym x) (as : List α) (xs : List Ref.Name) :
    (as.filter fun x => !(xs.map sym).contains x).map g = (as.map g).filter fun d => !decide (∃ x ∈ xs, d = .sym x) := by
  rw [List.filter_map]
  congr 1
  refine List.filter_congr fun a _ => ?_
  simp only [Function.comp]
  congr 1
  rw [Bool.eq_iff_iff]
  simp only [List.contains_iff_mem, List.mem_map, decide_eq_true_eq, hg]
  constructor
  · rintro ⟨x, h, rfl⟩; exact ⟨x, h, rfl⟩
  · rintro ⟨x, h, rfl⟩; exact ⟨x, h, rfl⟩

theorem readList_data (o : Misc.Opts) (c : Change) : (readList o c).map readDatum = c.request.list ((Misc.setting o).map readDatum) := by
  cases c with
  | set opt v => simp [readList, Change.request, Request.list, readDatum, simple_read]
  | enable vs => simp [readList, Change.request, Request.list, simple_read]
  | disable xs => exact filter_map_eq readDatum Misc.Arg.sym (fun _ _ => readDatum_sym) _ _

theorem debugList_data (o : Dbg.Opts) (c : Change) : (debugList o c).map debugDatum = c.request.list ((Dbg.setting o).map debugDatum) := by
  cases c with
  | set opt v => simp [debugList, Change.request, Request.list, debugDatum, simple_debug]
  | enable vs => simp [debugList, Change.request, Request.list, simple_debug]
  | disable xs => exact filter_map_eq debugDatum Dbg.Arg.sym (fun _ _ => debugDatum_sym) _ _

variable {get : σ → Misc.Opts × Dbg.Opts}

theorem interface_err {o o' : Misc.Opts} {as : List Misc.Arg} {e : Err} (h : Misc.interface o as = (.err e, o')) : o' = o := by
  unfold Misc.interface Misc.change at h
  by_cases ha : as = []
  · rw [if_pos ha] at h
    cases h
  · rw [if_neg ha] at h
    cases hl : Misc.changeLoop ⟨false, false, false, o.keywords⟩ as <;> rw [hl] at h <;> cases h
    rfl

/-- **C139** Using `read-set!`, `read-enable` or `read-disable` changes the read options as the model of C83 says, and returns the new options. -/
theorem c139_read (hP : HasStd P F) (hO : HasOptions P get) (hs : OptionsReady s) {c : Change} (hc : c.Ok) {l : List Misc.Arg} {o' : Misc.Opts}
    (h : c.read.run (get s.ext).1 = (.ok l, o')) :
    ∃ s', OptionsReady s' ∧ get s'.ext = (o', (get s.ext).2) ∧
      ∀ o t, Evals P 0 (c.request.form readFamily) s o t ↔ o = .ok (dataV (l.map readDatum)) ∧ t = s' := by
  have ha := hO.read s.ext (readList (get s.ext).1 c)
  rw [← read_run, h] at ha
  obtain ⟨x', hx, hg⟩ := ha
  rw [readList_data] at hx
  obtain ⟨s', h1, h2, h3⟩ := c139_value hP hs (.inl rfl) (hO.readShow s.ext) hc hx
  exact ⟨s', h1, by rw [h2, hg], h3⟩

/-- **C139** The same for the debug options, as C110 says. -/
theorem c139_debug (hP : HasStd P F) (hO : HasOptions P get) (hs : OptionsReady s) {c : Change} (hc : c.Ok) {l : List Dbg.Arg} {d' : Dbg.Opts}
    (h : Dbg.step (get s.ext).2 c.debug = (.ok l, d')) :
    ∃ s', OptionsReady s' ∧ get s'.ext = ((get s.ext).1, d') ∧
      ∀ o t, Evals P 0 (c.request.form debugFamily) s o t ↔ o = .ok (dataV (l.map debugDatum)) ∧ t = s' := by
  have ha := hO.debug s.ext (debugList (get s.ext).2 c)
  rw [← debug_run, h] at ha
  obtain ⟨x', hx, hg⟩ := ha
  rw [debugList_data] at hx
  obtain ⟨s', h1, h2, h3⟩ := c139_value hP hs (.inr rfl) (hO.debugShow s.ext) hc hx
  exact ⟨s', h1, by rw [h2, hg], h3⟩

/-- **C139** A change that is an error is an error of the program, and leaves the options as they were. -/
theorem c139_read_error (hP : HasStd P F) (hO : HasOptions P get) (hs : OptionsReady s) {c : Change} (hc : c.Ok) {e : Err} {o' : Misc.Opts}
    (h : c.read.run (get s.ext).1 = (.err e, o')) :
    ∃ s' k a, OptionsReady s' ∧ get s'.ext = get s.ext ∧ ∀ o t, Evals P 0 (c.request.form readFamily) s o t ↔ o = .stop (.err none k a) ∧ t = s' := by
  have ha := hO.read s.ext (readList (get s.ext).1 c)
  rw [← read_run, h] at ha
  obtain ⟨k, a, x', hx, hg⟩ := ha
  rw [readList_data] at hx
  obtain ⟨s', h1, h2, h3⟩ := c139_error hP hs (.inl rfl) (hO.readShow s.ext) hc hx
  refine ⟨s', k, a, h1, ?_, h3⟩
  rw [read_run] at h
  have hsame := interface_err h
  rw [h2, hg, hsame]

/-- **C139** The same for the debug options. -/
theorem c139_debug_error (hP : HasStd P F) (hO : HasOptions P get) (hs : OptionsReady s) {c : Change} (hc : c.Ok) {e : Err} {d' : Dbg.Opts}
    (h : Dbg.step (get s.ext).2 c.debug = (.err e, d')) :
    ∃ s' k a, OptionsReady s' ∧ get s'.ext = get s.ext ∧ ∀ o t, Evals P 0 (c.request.form debugFamily) s o t ↔ o = .stop (.err none k a) ∧ t = s' := by
  have hsame : d' = (get s.ext).2 := by
    have := Dbg.c110_error_unchanged (get s.ext).2 c.debug (by rw [h]; intro l hl; cases hl)
    rw [h] at this
    exact this
  have ha := hO.debug s.ext (debugList (get s.ext).2 c)
  rw [← debug_run, h] at ha
  obtain ⟨k, a, x', hx, hg⟩ := ha
  rw [debugList_data] at hx
  obtain ⟨s', h1, h2, h3⟩ := c139_error hP hs (.inr rfl) (hO.debugShow s.ext) hc hx
  exact ⟨s', k, a, h1, by rw [h2, hg, hsame], h3⟩

/-- **C139** A session: each use has a value, and in the end the options are what the models say. -/
theorem c139_session (hP : HasStd P F) (hO : HasOptions P get) {cs : List (Bool × Change)} {o o' : Misc.Opts × Dbg.Opts} (h : Session cs o o')
    (hs : OptionsReady s) (hg : get s.ext = o) : ∃ s', EachValue P (sessionForms cs) s s' ∧ OptionsReady s' ∧ get s'.ext = o' := by
  induction h generalizing s with
  | nil => exact ⟨s, .nil, hs, hg⟩
  | @read c cs o d l o1 o2 hc hr _ ih =>
    have e : (get s.ext).1 = o := by rw [hg]
    obtain ⟨s1, h1, h2, h3⟩ := c139_read hP hO hs hc (by rw [e]; exact hr)
    obtain ⟨s', k1, k2, k3⟩ := ih h1 (by rw [h2, hg])
    exact ⟨s', .cons ((h3 _ _).2 ⟨rfl, rfl⟩) k1, k2, k3⟩
  | @debug c cs o d l d1 o2 hc hr _ ih =>
    have e : (get s.ext).2 = d := by rw [hg]
    obtain ⟨s1, h1, h2, h3⟩ := c139_debug hP hO hs hc (by rw [e]; exact hr)
    obtain ⟨s', k1, k2, k3⟩ := ih h1 (by rw [h2, hg])
    exact ⟨s', .cons ((h3 _ _).2 ⟨rfl, rfl⟩) k1, k2, k3⟩

/-! ## Non-vacuity: an interpreter with the option builtins, and a session in it -/

namespace OptDemo

/-- Reading a value back as a read option. -/
def readArg : V → Misc.Arg
  | .bool b => .bool b
  | .sym x => .sym x
  | .num n => .other n.toNat
  | .pair _ (.pair a _) => .quote (readArg a)
  | _ => .other 0

def debugArg : V → Dbg.Arg
  | .bool b => .bool b
  | .sym x => .sym x
  | .num n => .num n
  | .pair _ (.pair a _) => .quote (debugArg a)
  | .pair (.num n) .nil => .other n.toNat
  | _ => .other 0

def items {α : Type} (f : V → α) : V → List α
  | .pair a d => f a :: items f d
  | _ => []

theorem readArg_datum (a : Misc.Arg) : readArg (readDatum a).toV = a := by
  induction a with
  | quote a ih => show Misc.Arg.quote (readArg (readDatum a).toV) = _; rw [ih]
  | other k => show Misc.Arg.other (Int.toNat k) = _; rw [Int.toNat_natCast]
  | _ => rfl

theorem debugArg_datum (a : Dbg.Arg) : debugArg (debugDatum a).toV = a := by
  induction a with
  | quote a ih => show Dbg.Arg.quote (debugArg (debugDatum a).toV) = _; rw [ih]
  | other k => show Dbg.Arg.other (Int.toNat k) = _; rw [Int.toNat_natCast]
  | _ => rfl

theorem items_data {α : Type} {f : V → α} {g : α → Datum} (h : ∀ a, f (g a).toV = a) (as : List α) : items f (dataV (as.map g)) = as := by
  induction as with
  | nil => rfl
  | cons a as ih =>
    show f (g a).toV :: items f (dataV (as.map g)) = a :: as
    rw [h, ih]

/-- The answer of a model as the answer of a builtin. -/
def answer {α σ : Type} (g : α → Datum) (x : σ) : Res (List α) → PrimRes σ
  | .ok l => .done (.ok (dataV (l.map g))) x
  | .err _ => .done (.raise "eval-error" .nil) x
  | _ => .done .abort x

/-- Builtins with the options in their state. -/
def base : Prims (Misc.Opts × Dbg.Opts) where
  call := fun name args x =>
    if name = "read-options-interface" then
      match args with
      | [] => answer readDatum x (.ok (Misc.setting x.1))
      | a :: _ => let r := Misc.interface x.1 (items readArg a); answer readDatum (r.2, x.2) r.1
    else if name = "debug-options-interface" then
      match args with
      | [] => answer debugDatum x (.ok (Dbg.setting x.2))
      | a :: _ => let r := Dbg.interface x.2 (items debugArg a); answer debugDatum (x.1, r.2) r.1
    else .done (.ok .none) x
  init := fun _ => .nil
  file := fun _ _ => .missing

theorem std_none (F : FArith) {name : Ev.Name} (h : name = "read-options-interface" ∨ name = "debug-options-interface") (l : List Datum) :
    stdCall F name [] = none ∧ stdCall F name [dataV l] = none := by
  rcases h with rfl | rfl
  · exact ⟨rfl, by cases l <;> rfl⟩
  · exact ⟨rfl, by cases l <;> rfl⟩

theorem answerIs {α σ ω : Type} (g : α → Datum) {get : σ → ω} (x : σ) (r : Res (List α)) :
    AnswerIs g get (answer g x r) (r, get x) := by
  cases r with
  | ok l => exact ⟨x, rfl, rfl⟩
  | err e => exact ⟨_, _, x, rfl, rfl⟩
  | _ => trivial

theorem has (F : FArith) : HasOptions (withStd F base) id where
  readShow := fun x => by
    simp only [withStd, (std_none F (.inl rfl) []).1]
    rfl
  debugShow := fun x => by
    simp only [withStd, (std_none F (.inr rfl) []).1]
    rfl
  read := fun x as => by
    simp only [withStd, (std_none F (.inl rfl) (as.map readDatum)).2, base, if_true, items_data readArg_datum]
    exact answerIs readDatum (get := id) (_, x.2) _
  debug := fun x as => by
    simp only [withStd, (std_none F (.inr rfl) (as.map debugDatum)).2, base, items_data debugArg_datum]
    exact answerIs debugDatum (get := id) (x.1, _) _

macro "names_ok" : tactic => `(tactic| (simp only [Change.Ok, Change.request, Request.Ok, List.map, Simple.lit, Lit.Ok, List.mem_cons, List.not_mem_nil, or_false, forall_eq, and_true]; decide +kernel))

/-- `(read-enable 'case-insensitive)`, `(debug-set! depth 50)`, `(read-set! keywords 'prefix)`, `(read-disable 'positions)`, `(debug-disable 'cheap)`. -/
def demo : List (Bool × Change) :=
  [(true, .enable [.sym "case-insensitive"]), (false, .set "depth" (.num 50)), (true, .set "keywords" (.sym "prefix")), (true, .disable ["positions"]),
   (false, .disable ["cheap"])]

end OptDemo

open OptDemo in
/-- The session has values, and the options are then: case-insensitive, no positions, prefix keywords; the depth 50, and not cheap. -/
example (F : FArith) : ∃ s' d, EachValue (withStd F base) (sessionForms demo) (start (Misc.defaults, Dbg.defaults)) s' ∧
    s'.ext = (⟨false, false, true, some (.sym "prefix")⟩, d) ∧ d.int "depth" = 50 ∧ d.flag "cheap" = false ∧ d.flag "procnames" = true := by
  obtain ⟨s', h1, _, h3⟩ := c139_session (withStd_has F base) (OptDemo.has F) (cs := demo) (o := (Misc.defaults, Dbg.defaults))
    (.read (by names_ok) rfl (.debug (by names_ok) rfl (.read (by names_ok) rfl (.read (by names_ok) rfl (.debug (by names_ok) rfl .nil)))))
    (ready_start _) rfl
  exact ⟨s', _, h1, h3, rfl, rfl, rfl⟩

open OptDemo in
/-- An unknown option is an error. -/
example (F : FArith) : ∃ s' k a, OptionsReady s' ∧ s'.ext = (Misc.defaults, Dbg.defaults) ∧
    ∀ o t, Evals (withStd F base) 0 (listOf [.sym "read-set!", .sym "colour", .num 3]) (start (Misc.defaults, Dbg.defaults)) o t ↔
      o = .stop (.err none k a) ∧ t = s' := by
  obtain ⟨s', k, a, h1, h2, h3⟩ := c139_read_error (withStd_has F base) (OptDemo.has F) (ready_start (Misc.defaults, Dbg.defaults)) (c := .set "colour" (.num 3))
    (e := .evalError) (o' := Misc.defaults) (by names_ok) rfl
  exact ⟨s', k, a, h1, h2, h3⟩

end Pscm
