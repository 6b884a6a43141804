import Verif.GcRoots
import Verif.GcProps
/-!
# C137: what the interpreter holds survives a collection
-/
namespace Pscm
open Pscm.Gc

/-! ## Specification -/

/-- The pointer `v` is held: by a registered C variable, by a variable of the global environment, by a register, or by a word of the stack (8-aligned)
between the scanning function and the marker. -/
inductive Held (w : World) (v : Nat) : Prop
  | var {x} : x ∈ w.registry → w.var x = v → Held w v
  | global : v ∈ w.genv → v ≠ 0 → Held w v
  | register : v ∈ w.regs → Held w v
  | stack {t p} : w.top = some t → p % 8 = 0 → w.sp ≤ p + 7 → p + 8 ≤ t → w.stack p = v → Held w v

/-- The block can be reached from the object `v` through fields. -/
inductive From (h : Heap) (v : Nat) : Nat → Prop
  | self {a} : PtrTo h v a → From h v a
  | field {a b u} : From h v a → Field h a u → PtrTo h u b → From h v b

/-- The C variables in which the interpreter itself keeps objects between evaluations, by file, apart from options: constants and symbols of src/c/symbol.cc,
the environment and context of init.cc and eval.cc, the wind chain of dynwind.cc, the key of throw.cc, the modules of module.cc, the ports of port.cc. -/
def InterpreterVar (x : String) : Prop :=
  x ∈ ["scm_none", "scm_nil", "scm_bool_true", "scm_bool_false"] ∨
  x ∈ ["scm_sym_quote", "scm_sym_quasiquote", "scm_sym_unquote", "scm_sym_unquote_splicing", "scm_sym_lambda", "scm_sym_let", "scm_sym_letrec", "scm_sym_set"] ∨
  x ∈ ["g_current_eval_context", "g_wind_chain", "g_error_key"] ∨
  x ∈ ["g_root_module", "g_current_module", "g_module_registry"] ∨
  x ∈ ["g_eof_object", "g_current_input_port", "g_current_output_port", "g_current_error_port"]

/-! ## Lemmas -/

theorem mem_wordsFrom {stack : Nat → Nat} {p : Nat} : ∀ {n a : Nat}, (∃ i, i < n ∧ p = a + 8 * i) → stack p ∈ wordsFrom stack a n := by
  intro n
  induction n with
  | zero => rintro a ⟨i, hi, _⟩; omega
  | succ n ih =>
    rintro a ⟨i, hi, rfl⟩
    cases i with
    | zero => exact .head _
    | succ i => exact .tail _ (ih ⟨i, by omega, by omega⟩)

theorem held_root {w : World} {v : Nat} (h : Held w v) : v ∈ rootWords w := by
  unfold rootWords
  simp only [List.mem_append]
  cases h with
  | var hx e => exact .inl (.inl (.inl (List.mem_map.2 ⟨_, hx, e⟩)))
  | global hg h0 => exact .inl (.inl (.inr (by simp [hg, h0])))
  | register hr => exact .inl (.inr hr)
  | @stack t p ht hp h1 h2 e =>
    right
    subst e
    unfold stackWords
    rw [ht]
    have : ¬ w.sp > t := by omega
    simp only [if_neg this]
    apply mem_wordsFrom
    unfold alignDown
    refine ⟨(p - w.sp / 8 * 8) / 8, by omega, by omega⟩

theorem from_reach {h : Heap} {roots : List Nat} {v a : Nat} (hv : v ∈ roots) (hf : From h v a) : Reach h roots a := by
  induction hf with
  | self hp => exact .root hv hp
  | field _ hu hp ih => exact .step ih hu hp

theorem fold_register (xs : List String) : ∀ w : World, (xs.foldl registerRoot w).registry = w.registry ++ xs.take (maxRoots - w.registry.length) ∧
    (xs.foldl registerRoot w).top = w.top := by
  induction xs with
  | nil => intro w; simp
  | cons x xs ih =>
    intro w
    simp only [List.foldl_cons]
    obtain ⟨h1, h2⟩ := ih (registerRoot w x)
    rw [h1, h2]
    unfold registerRoot
    by_cases hl : w.registry.length ≥ maxRoots
    · rw [if_pos hl]
      simp [show maxRoots - w.registry.length = 0 by omega]
    · rw [if_neg hl]
      refine ⟨?_, rfl⟩
      rw [show maxRoots - w.registry.length = (maxRoots - (w.registry ++ [x]).length) + 1 by simp; omega]
      simp

/-! ## C137 -/

/-- C137: whatever is held, and everything that can be reached from it through fields, is in use after a collection, with its type, size and contents. -/
theorem c137_kept {h h' : Heap} (W : WF h) {n : Nat} {w : World} (hc : collect n h w = .ok h') {v a : Nat} (hv : Held w v) (ha : From h v a) :
    Live h' a ∧ ∀ d, h.hdr a = some d → h'.hdr a = some d ∧ ∀ x, a + 16 ≤ x → x < a + 16 + d.size → h'.mem x = h.mem x := by
  have hr := from_reach (held_root hv) ha
  obtain ⟨_, e1, _, _, e4, e5⟩ := runGc_spec W hc
  exact ⟨(e4 a).2 hr, fun d hd => ⟨by rw [e1]; exact hd, e5 a d hr hd⟩⟩

/-- C137: the variables registered are the first 8192; in the interpreter started by `main` these are all its own, and the stack is scanned. -/
theorem c137_registered (w : World) (xs : List String) (marker : Nat) :
    (w.registry = [] → (xs.foldl registerRoot w).registry = xs.take 8192) ∧
    (∀ x, x ∈ (mainStart w marker).registry ↔ InterpreterVar x) ∧ (mainStart w marker).top = some marker := by
  refine ⟨fun h0 => ?_, ?_, ?_⟩
  · rw [(fold_register xs w).1, h0]; rfl
  · have : (mainStart w marker).registry = codeRoots := by
      unfold mainStart
      rw [(fold_register codeRoots _).1]
      rfl
    rw [this]
    intro x
    simp only [codeRoots, InterpreterVar, List.mem_cons, List.not_mem_nil, or_false]
    constructor
    · rintro (h | h | h | h | h | h | h | h | h | h | h | h | h | h | h | h | h | h | h | h | h | h) <;> simp [h]
    · rintro ((h | h | h | h) | (h | h | h | h | h | h | h | h) | (h | h | h) | (h | h | h) | h | h | h | h) <;> simp [h]
  · unfold mainStart
    rw [(fold_register codeRoots _).2]
    rfl

/-- C137 is FALSE in a host program: after `pscm_init` the stack is never scanned.  Every collection, also in the middle of an evaluation, frees every object
that is not held by a global variable or a register, whatever the stack holds. -/
theorem c137_host_fails {h h' : Heap} (W : WF h) {n : Nat} {w0 w : World} (hw : w.registry = (hostStart w0).registry ∧ w.top = (hostStart w0).top)
    (hc : collect n h w = .ok h') (a : Nat) :
    Live h' a ↔ Reach h (codeRoots.map w.var ++ w.genv.filter (· ≠ 0) ++ w.regs) a := by
  obtain ⟨h1, h2⟩ := hw
  have e1 : w.registry = codeRoots := by
    rw [h1]
    unfold hostStart
    rw [(fold_register codeRoots _).1]
    rfl
  have e2 : w.top = none := by
    rw [h2]
    unfold hostStart
    rw [(fold_register codeRoots _).2]
  have e3 : stackWords w = [] := by unfold stackWords; rw [e2]
  have := (runGc_spec W hc).2.2.2.2.1 a
  unfold rootWords at this
  rw [e1, e3, List.append_nil] at this
  exact this

/-- C137 is FALSE for the values of the options `keywords` and `show-file-name`: what these variables hold makes no difference for a collection. -/
theorem c137_options_fail (n : Nat) (h : Heap) (w : World) (hw : ∀ x ∈ w.registry, x ∈ codeRoots) {x : String} (hx : x ∈ optionVars) (v : Nat) :
    collect n h { w with var := fun y => if y = x then v else w.var y } = collect n h w := by
  unfold collect
  congr 1
  unfold rootWords
  have : w.registry.map (fun y => if y = x then v else w.var y) = w.registry.map w.var := by
    apply List.map_congr_left
    intro y hy
    have hne : y ≠ x := by
      rintro rfl
      have h1 := hw y hy
      have h2 : ∀ z ∈ optionVars, z ∉ codeRoots := by decide +kernel
      exact h2 y hx h1
    rw [if_neg hne]
  simp only [this]
  rfl

/-! ## Examples -/

namespace Gc.Demo

/-- A world with one number on the stack. -/
def world (top : Option Nat) : World := ⟨fun _ => 0, [], [], [], fun p => if p = 808 then 4112 else 0, 800, top⟩

/-- A heap with one object, at 4112. -/
def oneObj : R Heap := do
  let (h, _) ← gcAlloc 10 (gcInit 4096 (fun _ => []) fun _ => 0) [] NUMBERt 16 0
  pure h

/-- Held by the stack, the object survives in the interpreter started by `main` and is freed in a host program. -/
theorem c137_host_counterexample : ∃ h h1 h2, oneObj = .ok h ∧ Live h 4096 ∧ Held (mainStart (world none) 1000) 4112 ∧
    collect 10 h (mainStart (world none) 1000) = .ok h1 ∧ Live h1 4096 ∧ collect 10 h (hostStart (world (some 1000))) = .ok h2 ∧ ¬ Live h2 4096 := by
  refine ⟨heapOf oneObj, heapOf (collect 10 (heapOf oneObj) (mainStart (world none) 1000)), heapOf (collect 10 (heapOf oneObj) (hostStart (world (some 1000)))),
    ok_heapOf (by decide +kernel), ⟨⟨⟨false, NUMBERt, 16⟩, by decide +kernel⟩, ?_⟩, ?_, ok_heapOf (by decide +kernel), ?_, ok_heapOf (by decide +kernel),
    fun hl => hl.2 0 (by decide +kernel)⟩
  · have : (heapOf oneObj).free = fun _ => [] := rfl
    intro k; rw [this]; simp
  · exact .stack (t := 1000) (p := 808) rfl (by decide) (by decide) (by decide) rfl
  · refine ⟨⟨⟨false, NUMBERt, 16⟩, by decide +kernel⟩, ?_⟩
    have : (heapOf (collect 10 (heapOf oneObj) (mainStart (world none) 1000))).free = fun _ => [] := rfl
    intro k; rw [this]; simp

end Gc.Demo

end Pscm
