import Verif.EvLoad
import Verif.EvScopeProps
/-!
# C90 – C94: files and modules

The vocabulary is in `Verif.EvLoad`: `Registered`, `SearchPaths`, `FirstFile`, `Resolves`, `ImportsAll`.
-/
namespace Pscm
open Ev
variable {σ : Type} {P : Prims σ}

/-! ## Vocabulary -/

/-- `s'` comes from `s` by evaluating any expressions, whatever their outcomes. -/
inductive Afterwards (P : Prims σ) (s : St σ) : St σ → Prop
  | refl : Afterwards P s s
  | step {env e s1 o s2} : Afterwards P s s1 → Evals P env e s1 o s2 → Afterwards P s s2

/-- The builtins `load` and `primitive-load`. -/
def IsLoad (n : Name) : Prop := n = "load" ∨ n = "primitive-load"

/-- The error raised with a message. -/
def errorWith (s : St σ) (msg : String) : Out V := .stop (throwStop s "error" (.pair (.str msg) .nil))

/-! ## Lemmas -/

theorem afterwards_mods {s s' : St σ} (h : Afterwards P s s') : ModsKept s.mods s'.mods ∧ s'.root = s.root := by
  induction h with
  | refl => exact ⟨.refl _, rfl⟩
  | step _ h ih => have := run_mods (evals_iff.1 h); exact ⟨ih.1.trans this.1, this.2.trans ih.2⟩

theorem afterwards_ext {s s' : St σ} (h : Afterwards P s s') (i : Nat) (f : Frame) (hf : s.frames[i]? = some f) :
    ∃ f' : Frame, s'.frames[i]? = some f' ∧ f'.parent = f.parent ∧ f'.modl = f.modl ∧ ∀ x, hasEntry x f.entries = true → hasEntry x f'.entries = true := by
  induction h with
  | refl => exact ⟨f, hf, rfl, rfl, fun _ h => h⟩
  | step _ h ih =>
    obtain ⟨f1, h1, h2, h3, h4⟩ := ih
    obtain ⟨f2, k1, k2, k3, k4⟩ := (run_ext (evals_iff.1 h)).frames i f1 h1
    exact ⟨f2, k1, k2.trans h2, k3.trans h3, fun x hx => k4 x (h4 x hx)⟩

theorem callPrim_load {n : Name} (hn : IsLoad n) {f : String} {s : St σ} : callPrim P (run P) n [.str f] s = loadFile P (run P) 0 f s := by
  rcases hn with rfl | rfl <;> simp [callPrim]

theorem load_plain {n : Name} (hn : IsLoad n) : n ≠ "apply" ∧ ¬ (n = "map" ∨ n = "map-in-order") ∧ isCallCC n ≠ true := by
  rcases hn with rfl | rfl <;> decide

theorem nameOf_pair {xs : List Name} (h : xs ≠ []) : ∃ a d, nameOf xs = .pair a d := by
  cases xs with
  | nil => exact absurd rfl h
  | cons x xs => exact ⟨.sym x, nameOf xs, rfl⟩

theorem registerModule_apply (name : V) (s : St σ) : registerModule name s =
    match findByName s.mods name with
    | some m => some (.ok m, s)
    | Option.none => some (.ok s.mods.length, { s with mods := s.mods ++ [freshModule name] }) := rfl

/-! ## C90: loading a file -/

/-- C90: loading a file evaluates its expressions in order at top level; the outcome is that of the sequence. -/
theorem c90_load {n : Name} {env : EnvId} {e : V} {f : String} {x : V} {xs : List V} {s s1 s' : St σ} {o : Out V} (hn : IsLoad n)
    (he : Evals P env e s (.ok (.str f)) s1) (hf : P.file f s1.ext = .exprs (x :: xs)) :
    Evals P env (listOf [.func n 1, e]) s o s' ↔ SeqEval (Evals P) 0 (x :: xs) s1 o s' := by
  rw [evals_call1 (load_plain hn) he, callPrim_load hn, loadFile_iff hf]

/-- C90: a file that cannot be opened, or that cannot be parsed, is an error, and none of its expressions is evaluated. -/
theorem c90_unreadable {n : Name} {env : EnvId} {e : V} {f : String} {s s1 : St σ} (hn : IsLoad n) (he : Evals P env e s (.ok (.str f)) s1) :
    (P.file f s1.ext = .missing → Evals P env (listOf [.func n 1, e]) s (errorWith s1 "primitive-load: failed to load file") s1) ∧
    (P.file f s1.ext = .malformed → Evals P env (listOf [.func n 1, e]) s (errorWith s1 "Parse error") s1) := by
  have key : ∀ o, Evals P env (listOf [.func n 1, e]) s o s1 ↔ loadFile P (run P) 0 f s1 = some (o, s1) := fun o => by
    rw [evals_call1 (load_plain hn) he, callPrim_load hn]
  exact ⟨fun h => (key _).2 (loadFile_bad (.inl ⟨.inr h, rfl⟩)), fun h => (key _).2 (loadFile_bad (.inr ⟨h, rfl⟩))⟩

/-- C90 fails for a file without expressions: it is an error, as if the file did not exist. -/
theorem c90_counterexample {n : Name} {env : EnvId} {e : V} {f : String} {s s1 : St σ} (hn : IsLoad n) (he : Evals P env e s (.ok (.str f)) s1)
    (hf : P.file f s1.ext = .exprs []) : Evals P env (listOf [.func n 1, e]) s (errorWith s1 "primitive-load: failed to load file") s1 := by
  rw [evals_call1 (load_plain hn) he, callPrim_load hn]
  exact loadFile_bad (.inl ⟨.inl hf, rfl⟩)

namespace Demo
open Ev.Demo
/-- The small interpreter of the examples, with files. -/
def world (files : List (String × FileRes)) : Prims Unit := { Ev.Demo.prims with file := fun f _ => (files.lookup f).getD .missing }

theorem evals_in {P : Prims Unit} {e : V} {env : Nat} {s : St Unit} {o : Out V} (n : Nat) (h : (ev P n (.eval env e) s).map Prod.fst = some o) :
    ∃ s', Evals P env e s o s' := by
  cases hr : ev P n (.eval env e) s with
  | none => rw [hr] at h; cases h
  | some q =>
    rw [hr] at h
    simp only [Option.map_some, Option.some.injEq] at h
    exact ⟨q.2, n, by rw [hr, ← h]⟩

/-- `(load "f")`. -/
def load (f : String) : V := l [.func "load" 1, .str f]
end Demo

open Demo in
/-- Loading a file that defines two variables, then using them: hypotheses of `c90_load` met, and the value. -/
example : (∃ s', Evals (world [("f.scm", .exprs [def' "x" 2, def' "y" 40])]) 0
      (prog [load "f.scm", Ev.Demo.l [.sym "+", .sym "x", .sym "y"]]) Demo.s0 (.ok (.num 42)) s') ∧
    (world [("f.scm", .exprs [def' "x" 2, def' "y" 40])]).file "f.scm" () = .exprs [def' "x" 2, def' "y" 40] :=
  ⟨evals_in 30 (by decide +kernel), rfl⟩
open Demo in
example : ∃ s', Evals (world []) 0 (load "f.scm") Demo.s0 (errorWith Demo.s0 "primitive-load: failed to load file") s' :=
  ⟨_, (c90_unreadable (.inl rfl) ⟨1, rfl⟩).1 rfl⟩

/-! ## C91: one name, one module -/

/-- C91: a name that denotes a module denotes the same module for ever. -/
theorem c91_persists {s s' : St σ} {name : V} {m : Nat} (hr : Registered s.mods name m) (h : Afterwards P s s') : Registered s'.mods name m :=
  hr.kept (afterwards_mods h).1

/-- C91: a name denotes one module. -/
theorem c91_unique {ms : List Modl} {name : V} {m m' : Nat} (h : Registered ms name m) (h' : Registered ms name m') : m = m' := by
  have := (registered_iff.2 h).symm.trans (registered_iff.2 h')
  exact Option.some.inj this

/-- C91: `(resolve-module name)` of a name that denotes a module gives that module and does nothing else -- no file is loaded again. -/
theorem c91_resolve {env : EnvId} {e : V} {xs : List Name} {m : Nat} {s s1 s' : St σ} {o : Out V} (hx : xs ≠ [])
    (he : Evals P env e s (.ok (nameOf xs)) s1) (hr : Registered s1.mods (nameOf xs) m) :
    Evals P env (listOf [.func "resolve-module" 1, e]) s o s' ↔ o = .ok (.modl m) ∧ s' = s1 := by
  rw [evals_call1 (by decide) he]
  obtain ⟨a, d, hp⟩ := nameOf_pair hx
  have hk := resolveModule_known (P := P) (registered_iff.2 hr)
  rw [hp] at hk ⊢
  have : callPrim P (run P) "resolve-module" [.pair a d] s1 = some (.ok (.modl m), s1) := by
    show modPrim P (run P) "resolve-module" [.pair a d] s1 = _
    unfold modPrim
    rw [getSt_bind]
    show (resolveModule P (run P) (.pair a d) >>= fun m => pure (V.modl m)) s1 = _
    rw [bind_apply, hk]
    rfl
  rw [this]
  constructor
  · intro h; cases h; exact ⟨rfl, rfl⟩
  · rintro ⟨rfl, rfl⟩; rfl

/-- C91: a request for a module that returns `m` makes the name denote `m` -- also when the module was made by the request. -/
theorem c91_registers {xs : List Name} {s s' : St σ} {m : Nat} (h : Resolves P xs s (.ok m) s') : Registered s'.mods (nameOf xs) m := by
  obtain ⟨k, h1, h2⟩ := h.registered
  rw [h2 m rfl]
  exact h1

/-- C91: hence a module is loaded at most once: whatever happens after a request that returned `m`, the next request returns `m` and does
nothing else. -/
theorem c91_once {env : EnvId} {e : V} {xs : List Name} {m : Nat} {s s1 s2 s3 s' : St σ} {o : Out V} (hx : xs ≠ [])
    (h : Resolves P xs s (.ok m) s1) (hl : Afterwards P s1 s2) (he : Evals P env e s2 (.ok (nameOf xs)) s3) :
    Evals P env (listOf [.func "resolve-module" 1, e]) s2 o s' ↔ o = .ok (.modl m) ∧ s' = s3 :=
  c91_resolve hx he (c91_persists (c91_registers h) (.step hl he))

/-- `(define-module name)`, with no macro in the way. -/
theorem defineModule_run {env : EnvId} {xs : List Name} {opts : V} {s : St σ} (hx : xs ≠ []) (hnm : NoMacro s "define-module") :
    run P (.eval env (.pair (.sym "define-module") (.pair (nameOf xs) opts))) s =
      (registerModule (nameOf xs) >>= fun m => runOpts P (run P) m (modOpts false (nodes opts)) >>= fun _ =>
        EM.modSt (fun s => { s with cur := m }) >>= fun _ => pure .none) s := by
  obtain ⟨a, d, hp⟩ := nameOf_pair hx
  rw [hp, run_eq]
  show evalPair P (run P) env (.sym "define-module") _ s = _
  rw [evalPair_form (f := .defineModule) hnm (by decide)]
  rfl

/-- C91: `(define-module name)` enters the module that the name denotes; nothing else changes. -/
theorem c91_reenter {env : EnvId} {xs : List Name} {m : Nat} {s s' : St σ} {o : Out V} (hx : xs ≠ []) (hnm : NoMacro s "define-module")
    (hr : Registered s.mods (nameOf xs) m) :
    Evals P env (listOf [.sym "define-module", nameOf xs]) s o s' ↔ o = .ok .none ∧ s' = { s with cur := m } := by
  have : run P (.eval env (listOf [.sym "define-module", nameOf xs])) s = some (.ok .none, { s with cur := m }) := by
    show run P (.eval env (.pair (.sym "define-module") (.pair (nameOf xs) .nil))) s = _
    rw [defineModule_run hx hnm, bind_apply, registerModule_apply, registered_iff.2 hr]
    rfl
  rw [evals_iff, this]
  constructor
  · intro h; cases h; exact ⟨rfl, rfl⟩
  · rintro ⟨rfl, rfl⟩; rfl

/-- C91: `(define-module name)` of a name that denotes no module makes an empty module and enters it; from then on the name denotes it. -/
theorem c91_enter {env : EnvId} {xs : List Name} {s s' : St σ} {o : Out V} (hx : xs ≠ []) (hnm : NoMacro s "define-module")
    (hr : ∀ m, ¬ Registered s.mods (nameOf xs) m) :
    (Evals P env (listOf [.sym "define-module", nameOf xs]) s o s' ↔
      o = .ok .none ∧ s' = { s with mods := s.mods ++ [⟨nameOf xs, [], [], [], Option.none⟩], cur := s.mods.length }) ∧
    Registered (s.mods ++ [⟨nameOf xs, [], [], [], Option.none⟩]) (nameOf xs) s.mods.length := by
  have hn : findByName s.mods (nameOf xs) = Option.none := by
    cases h : findByName s.mods (nameOf xs) with
    | none => rfl
    | some m => exact absurd (registered_iff.1 h) (hr m)
  refine ⟨?_, registered_new (notRegistered_iff.1 hn) _ _ _ _ _⟩
  have : run P (.eval env (listOf [.sym "define-module", nameOf xs])) s =
      some (.ok .none, { s with mods := s.mods ++ [⟨nameOf xs, [], [], [], Option.none⟩], cur := s.mods.length }) := by
    show run P (.eval env (.pair (.sym "define-module") (.pair (nameOf xs) .nil))) s = _
    rw [defineModule_run hx hnm, bind_apply, registerModule_apply, hn]
    rfl
  rw [evals_iff, this]
  constructor
  · intro h; cases h; exact ⟨rfl, rfl⟩
  · rintro ⟨rfl, rfl⟩; rfl

/-- C91 fails in one respect: a module whose file fails to load is registered nevertheless, and is not loaded again.  Here the file is broken: the
first request is an error, the second one succeeds with an empty module. -/
theorem c91_counterexample : ∃ s', Evals (Demo.world [("m.scm", .malformed)]) 0
      (Demo.prog [Ev.Demo.l [.sym "catch", .bool true, Ev.Demo.l [.sym "lambda", .nil, Demo.use "m"], Ev.Demo.l [.sym "lambda", .sym "r", .num 0]],
        Demo.use "m", Ev.Demo.l [.func "resolve-module" 1, quoted (nameOf ["m"])]]) Demo.s0 (.ok (.modl 1)) s' :=
  Demo.evals_in 40 (by decide +kernel)

open Demo in
/-- The file of `m` is evaluated once although `m` is requested twice: it increments `n`. -/
example : ∃ s', Evals (world [("m.scm", .exprs [Ev.Demo.l [.sym "set!", .sym "n", Ev.Demo.l [.sym "+", .sym "n", .num 1]]])]) 0
    (prog [def' "n" 0, use "m", use "m", .sym "n"]) Demo.s0 (.ok (.num 1)) s' := evals_in 40 (by decide +kernel)
open Demo in
example : ∃ s', Evals (world []) 0 (mod "m") Demo.s0 (.ok .none) s' ∧ Registered s'.mods (nameOf ["m"]) 1 :=
  have h := c91_enter (P := world []) (env := 0) (xs := ["m"]) (s := Demo.s0) (s' := _) (o := .ok .none) (by decide) (Ev.Demo.noMacro_s0 _)
    (fun m hm => by
      have h : findByName Demo.s0.mods (nameOf ["m"]) = Option.none := by decide
      rw [registered_iff.2 hm] at h; cases h)
  ⟨_, h.1.2 ⟨rfl, rfl⟩, h.2⟩

end Pscm
