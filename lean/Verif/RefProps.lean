import Verif.RefImpl3
import Verif.RefMono
/-!
# C138: the interpreter agrees with the reference semantics

`RefSem` and `RefStd` are a semantics of a sublanguage of Scheme that does not mention the interpreter.  Here: a program of the sublanguage that has a value there
has this value in the interpreter, and one that is an error there is an error in the interpreter.
-/
namespace Pscm.Ref
open Pscm.Ev hiding Name Form evalForm

/-- The value `w` of the interpreter is the value `v` of the semantics: the same datum; the builtin of the same name; a procedure with the same parameters and
body. -/
def Same : Ref.Val → V → Prop
  | .nil, w => w = .nil
  | .bool b, w => w = .bool b
  | .num n, w => w = .num n
  | .chr c, w => w = .chr c
  | .str s, w => w = .str s
  | .sym x, w => w = .sym x
  | .pair a d, w => ∃ a' d', w = .pair a' d' ∧ Same a a' ∧ Same d d'
  | .unspecified, w => w = .none
  | .undefined, _ => False
  | .unassigned, _ => False
  | .prim x, w => ∃ a, w = .func x a
  | .clo ps rest body _, w => ∃ e, w = .proc (paramList ps rest) (listOf (Exp.toVs body)) e

theorem VRel.same {A : Name → Int → Prop} {W : World} {v : Ref.Val} {w : V} (h : VRel A W v w) : Same v w := by
  induction v generalizing w with
  | pair a d iha ihd =>
    obtain ⟨a', d', rfl, ha, hd⟩ := h
    exact ⟨a', d', rfl, iha ha, ihd hd⟩
  | prim x => obtain ⟨a, _, rfl⟩ := h; exact ⟨a, rfl⟩
  | clo ps rest body ρ => obtain ⟨e, rfl, _⟩ := h; exact ⟨e, rfl⟩
  | _ => exact h

instance (x : Name) : Decidable (IsVar x) := inferInstanceAs (Decidable (_ ∧ _))

/-- The semantics of Scheme gives the program the answer `a`, in some number of steps. -/
def Means (fs : List Form) (a : Ans Ref.Val) : Prop :=
  ∃ n, (evalProgram standard n (initial builtinNames) fs).bind (fun q => .val q.1) = a

end Pscm.Ref

namespace Pscm
open Pscm.Ref
open Pscm.Ev hiding Name Form evalForm
variable {σ : Type} {P : Prims σ} {F : FArith}

/-- The outcome of a program in the initial state of the interpreter. -/
def Outcome (P : Prims σ) (x : σ) (fs : List Form) (o : Out V) : Prop :=
  ∃ s, SeqEval (Evals P) 0 (fs.map Form.toV) (start x) o s

theorem SeqEval.det {e : Nat} {xs : List V} {s : St σ} {o1 o2 : Out V} {s1 s2 : St σ} (h1 : SeqEval (Evals P) e xs s o1 s1) (h2 : SeqEval (Evals P) e xs s o2 s2) :
    o1 = o2 ∧ s1 = s2 := by
  cases xs with
  | nil => cases h1
  | cons x xs =>
    have e1 := Pscm.Ev.evalSeq_iff.2 h1
    rw [Pscm.Ev.evalSeq_iff.2 h2] at e1
    cases e1
    exact ⟨rfl, rfl⟩

theorem program_run (hP : HasStd P F) (x : σ) {fs : List Form} (hok : ∀ f ∈ fs, f.Ok Registered) (n : Nat) :
    Sim (.bare x) Registered (VRel Registered) (fun _ => none) (start x) (evalSeq (run P) 0 (fs.map Form.toV) (start x)) (evalProgram standard n (initial builtinNames) fs) :=
  sim_program (std_implements hP) n fs hok (start_rel x)

/-- **C138** A program that has a value in the semantics of Scheme has this value in the interpreter, and no other outcome. -/
theorem c138_value_partial (hP : HasStd P F) (x : σ) {fs : List Form} (hok : ∀ f ∈ fs, f.Ok Registered) {v : Ref.Val} (h : Means fs (.val v)) :
    ∃ w, Same v w ∧ ∀ o, Outcome P x fs o ↔ o = .ok w := by
  obtain ⟨n, hn⟩ := h
  have hs := program_run hP x hok n
  cases he : evalProgram standard n (initial builtinNames) fs with
  | error => rw [he] at hn; cases hn
  | unknown => rw [he] at hn; cases hn
  | val q =>
    rw [he] at hn hs
    obtain ⟨u, st⟩ := q
    cases hn
    obtain ⟨w, s', W', hm, _, hv, _⟩ := hs
    refine ⟨w, hv.same, fun o => ⟨fun ⟨s, ho⟩ => ?_, fun e => ?_⟩⟩
    all_goals
      cases fs with
      | nil => cases he
      | cons f fs => ?_
    · exact (SeqEval.det (Pscm.Ev.evalSeq_iff.1 hm) ho).1.symm
    · exact ⟨s', by rw [e]; exact Pscm.Ev.evalSeq_iff.1 hm⟩

/-- **C138** A program that is an error in the semantics of Scheme ends in an error in the interpreter. -/
theorem c138_error_partial (hP : HasStd P F) (x : σ) {fs : List Form} (hok : ∀ f ∈ fs, f.Ok Registered) {o : Option Store} (h : Means fs (.error o)) :
    ∃ k a, ∀ o, Outcome P x fs o ↔ o = .stop (.err none k a) := by
  obtain ⟨n, hn⟩ := h
  have hs := program_run hP x hok n
  cases he : evalProgram standard n (initial builtinNames) fs with
  | val q => rw [he] at hn; cases hn
  | unknown => rw [he] at hn; cases hn
  | error o' =>
    rw [he] at hs
    obtain ⟨k, a, s', hm, _⟩ := hs
    refine ⟨k, a, fun o => ⟨fun ⟨s, ho⟩ => ?_, fun e => ?_⟩⟩
    all_goals
      cases fs with
      | nil => cases he
      | cons f fs => ?_
    · exact (SeqEval.det (Pscm.Ev.evalSeq_iff.1 hm) ho).1.symm
    · exact ⟨s', by rw [e]; exact Pscm.Ev.evalSeq_iff.1 hm⟩


/-! ## Cases -/

/-- **C138** A program has at most one meaning: the number of steps it is given does not matter. -/
theorem c138_unique {fs : List Ref.Form} {a b : Ans Ref.Val} (ha : Means fs a) (hb : Means fs b) : a = .unknown ∨ b = .unknown ∨ a = b := by
  obtain ⟨m, rfl⟩ := ha
  obtain ⟨n, rfl⟩ := hb
  rcases Nat.le_total m n with h | h
  · rcases Ans.bind_le (evalProgram_le (B := standard) fs (initial builtinNames) h) (fun _ => Ans.le_refl _) with h | h
    · exact .inl h
    · exact .inr (.inr h)
  · rcases Ans.bind_le (evalProgram_le (B := standard) fs (initial builtinNames) h) (fun _ => Ans.le_refl _) with h | h
    · exact .inr (.inl h)
    · exact .inr (.inr h.symm)


namespace RefDemo

/-- Is the value this datum?  For the runs below. -/
def isDatum : Ref.Val → Datum → Bool
  | .nil, .nil => true
  | .bool a, .bool b => a == b
  | .num a, .num b => a == b
  | .sym a, .sym b => a == b
  | .chr a, .chr b => a == b
  | .str a, .str b => a == b
  | .pair a d, .pair a' d' => isDatum a a' && isDatum d d'
  | _, _ => false

theorem isDatum_eq {v : Ref.Val} {d : Datum} (h : isDatum v d = true) : v = d.toVal := by
  induction v generalizing d with
  | pair a b iha ihb =>
    cases d with
    | pair a' d' =>
      simp only [isDatum, Bool.and_eq_true] at h
      rw [iha h.1, ihb h.2]
      rfl
    | _ => cases h
  | _ => cases d <;> simp_all [isDatum, Datum.toVal]

def givesDatum (d : Datum) : Ans (Ref.Val × Store) → Bool
  | .val q => isDatum q.1 d
  | _ => false

/-- A run of the semantics, evaluated by the kernel. -/
theorem means_of (n : Nat) {fs : List Form} (d : Datum) (h : givesDatum d (evalProgram standard n (initial builtinNames) fs) = true) : Means fs (.val d.toVal) := by
  refine ⟨n, ?_⟩
  cases hq : evalProgram standard n (initial builtinNames) fs with
  | val q =>
    rw [hq] at h
    simp only [Ans.bind, isDatum_eq h]
  | _ => rw [hq] at h; cases h


/-- `(define (fact n) (if (= n 0) 1 (* n (fact (- n 1)))))` -/
def factBody : Exp :=
  .ite (.app (.var "=") [.var "n", .const (.num 0)]) (.const (.num 1))
    (.app (.var "*") [.var "n", .app (.var "fact") [.app (.var "-") [.var "n", .const (.num 1)]]])
def factDef : Form := .defun "fact" ["n"] none [factBody]
def factCall (m : Nat) : Form := .exp (.app (.var "fact") [.const (.num m)])

def factorial : Nat → Nat
  | 0 => 1
  | n + 1 => (n + 1) * factorial n

theorem factorial_pos : ∀ n, 1 ≤ factorial n
  | 0 => Nat.le_refl _
  | n + 1 => Nat.le_trans (factorial_pos n) (Nat.le_mul_of_pos_left _ (Nat.succ_pos n))

/-- What `fact` needs of the global variables. -/
structure Globals (G : List (Ref.Name × Ref.Val)) : Prop where
  eq : G.lookup "=" = some (.prim "=")
  mul : G.lookup "*" = some (.prim "*")
  sub : G.lookup "-" = some (.prim "-")
  fact : G.lookup "fact" = some (.clo ["n"] none [factBody] [])

theorem eval_var {n : Nat} {ρ : Env} {st : Store} {x : Ref.Name} {v : Ref.Val} (h : look ρ st x = some v) (hv : v ≠ .undefined ∧ v ≠ .unassigned) :
    eval standard (n + 1) ρ (.var x) st = .val (v, st) := by
  simp only [eval, h]
  split
  · exact absurd (Option.some.inj ‹_›) hv.1
  · exact absurd (Option.some.inj ‹_›) hv.2
  · cases ‹some v = _›; rfl
  · cases ‹some v = _›

theorem eval_app {n : Nat} {ρ : Env} {f : Exp} {args : List Exp} {st st1 st2 : Store} {vf : Ref.Val} {vs : List Ref.Val} (h1 : eval standard n ρ f st = .val (vf, st1))
    (hc : callable standard vf = true) (h2 : evalList standard n ρ args st1 = .val (vs, st2)) (hm : misfit args.length vf = false := by rfl) :
    eval standard (n + 1) ρ (.app f args) st = Ref.apply standard n vf vs st2 := by
  simp only [eval, h1, Ans.bind, hc, if_true, h2, hm, Bool.false_eq_true, if_false]

theorem evalList_cons {n : Nat} {ρ : Env} {e : Exp} {es : List Exp} {st st1 st2 : Store} {v : Ref.Val} {vs : List Ref.Val} (h1 : eval standard n ρ e st = .val (v, st1))
    (h2 : evalList standard n ρ es st1 = .val (vs, st2)) : evalList standard (n + 1) ρ (e :: es) st = .val (v :: vs, st2) := by
  simp only [evalList, h1, Ans.bind, h2]

theorem eval_ite {n : Nat} {ρ : Env} {c a b : Exp} {st st1 : Store} {v : Ref.Val} (h : eval standard n ρ c st = .val (v, st1)) :
    eval standard (n + 1) ρ (.ite c a b) st = if v.isTrue then eval standard n ρ a st1 else eval standard n ρ b st1 := by
  simp only [eval, h, Ans.bind]

theorem evalList_nil {n : Nat} {ρ : Env} {st : Store} : evalList standard (n + 1) ρ [] st = .val ([], st) := rfl

theorem apply_prim {n : Nat} {x : Ref.Name} {vs : List Ref.Val} {v : Ref.Val} {st : Store} (hd : standard.dom x = true) (h : stdAp x vs = .val v) :
    Ref.apply standard (n + 1) (.prim x) vs st = .val (v, st) := by
  have : standard.ap x vs = .val v := h
  have hp : standard.prints x vs = [] := rfl
  simp only [Ref.apply, hd, if_true, this, hp, afterPrint]

theorem word_nat {m : Nat} (h : m < 2 ^ 63) : Word (m : Int) := by unfold Word; omega

theorem ap_sub {a b : Int} (ha : Word a) (hab : Word (a - b)) : stdAp "-" [.num a, .num b] = .val (.num (a - b)) := by
  simp only [stdAp, onInts, ints, Option.map_some, ha, if_true, running, hab]

theorem ap_mul {a b : Int} (ha : Word a) (hab : Word (a * b)) : stdAp "*" [.num a, .num b] = .val (.num (a * b)) := by
  simp only [stdAp, onInts, ints, Option.map_some, running, Int.one_mul, ha, hab, if_true]

section
variable {G : List (Ref.Name × Ref.Val)} {cells : List Ref.Val} {O : List Event}

/-- The variable `n` in the body of `fact`. -/
theorem fact_n (m : Nat) (n : Nat) : eval standard (n + 1) [("n", cells.length)] (.var "n") ⟨cells ++ [.num m], G, O⟩ = .val (.num m, ⟨cells ++ [.num m], G, O⟩) :=
  eval_var (by simp [look, List.lookup]) (by simp)

theorem fact_global {l : Nat} {x : Ref.Name} {v : Ref.Val} (hx : x ≠ "n") (hl : G.lookup x = some v) (hu : v ≠ .undefined ∧ v ≠ .unassigned) (n : Nat) :
    eval standard (n + 1) [("n", l)] (.var x) ⟨cells, G, O⟩ = .val (v, ⟨cells, G, O⟩) := by
  have : (x == "n") = false := by simpa using hx
  exact eval_var (by simp [look, List.lookup, this, hl]) hu

theorem fact_cond (hG : Globals G) (m n : Nat) :
    eval standard (n + 4) [("n", cells.length)] (.app (.var "=") [.var "n", .const (.num 0)]) ⟨cells ++ [.num m], G, O⟩ =
      .val (.bool (decide (m = 0)), ⟨cells ++ [.num m], G, O⟩) := by
  rw [eval_app (fact_global (by decide) hG.eq (by simp) _) (by decide) (evalList_cons (fact_n m _) (evalList_cons rfl evalList_nil)), apply_prim (by decide) rfl]
  simp only [chain, Bool.and_true]
  have : ((m : Int) = 0) ↔ m = 0 := by omega
  simp only [this]

theorem fact_sub (hG : Globals G) {m : Nat} (hm : m + 1 < 2 ^ 63) (n : Nat) :
    eval standard (n + 4) [("n", cells.length)] (.app (.var "-") [.var "n", .const (.num 1)]) ⟨cells ++ [.num ((m + 1 : Nat) : Int)], G, O⟩ =
      .val (.num m, ⟨cells ++ [.num ((m + 1 : Nat) : Int)], G, O⟩) := by
  rw [eval_app (fact_global (by decide) hG.sub (by simp) _) (by decide) (evalList_cons (fact_n _ _) (evalList_cons rfl evalList_nil))]
  refine apply_prim (by decide) ?_
  have h2 : ((m + 1 : Nat) : Int) - 1 = m := by omega
  have h := ap_sub (a := ((m + 1 : Nat) : Int)) (b := 1) (word_nat hm) (by rw [h2]; exact word_nat (by omega))
  rw [h2] at h
  exact h

theorem fact_apply (hG : Globals G) (m : Nat) (hm : factorial m < 2 ^ 63) (k : Nat) (cells : List Ref.Val) :
    ∃ cells', Ref.apply standard (7 * m + 7 + k) (.clo ["n"] none [factBody] []) [.num m] ⟨cells, G, O⟩ = .val (.num (factorial m), ⟨cells', G, O⟩) := by
  have hbody : ∀ (m : Nat) cells n o, eval standard n [("n", cells.length)] factBody ⟨cells ++ [.num m], G, O⟩ = o →
      Ref.apply standard (n + 2) (.clo ["n"] none [factBody] []) [.num m] ⟨cells, G, O⟩ = o := fun _ _ _ _ h => h
  induction m generalizing cells with
  | zero =>
    refine ⟨cells ++ [.num 0], ?_⟩
    rw [show 7 * 0 + 7 + k = (k + 4 + 1) + 2 by omega]
    refine hbody _ _ _ _ ?_
    rw [factBody, eval_ite (fact_cond hG 0 k)]
    rfl
  | succ m ih =>
    have hp : factorial m ≤ factorial (m + 1) := Nat.le_mul_of_pos_left _ (Nat.succ_pos m)
    have hq : m + 1 ≤ factorial (m + 1) := Nat.le_mul_of_pos_right _ (factorial_pos m)
    obtain ⟨cells', ih⟩ := ih (Nat.lt_of_le_of_lt hp hm) (cells ++ [.num ((m + 1 : Nat) : Int)])
    refine ⟨cells', ?_⟩
    have hm1 := fact_sub (O := O) (cells := cells) hG (m := m) (by omega) (7 * m + k + 2)
    rw [show 7 * (m + 1) + 7 + k = (7 * m + 7 + k + 1 + 2 + 1 + 1) + 2 by omega]
    refine hbody _ _ _ _ ?_
    rw [factBody, show 7 * m + 7 + k + 1 + 2 + 1 + 1 = (7 * m + 7 + k) + 4 + 1 by omega, eval_ite (fact_cond hG (m + 1) (7 * m + 7 + k))]
    simp only [Nat.add_one_ne_zero, decide_false, Ref.Val.isTrue, Bool.false_eq_true, if_false]
    have hcall : eval standard (7 * m + 7 + k + 1) [("n", cells.length)] (.app (.var "fact") [.app (.var "-") [.var "n", .const (.num 1)]]) ⟨cells ++ [.num ((m + 1 : Nat) : Int)], G, O⟩ =
        .val (.num (factorial m), ⟨cells', G, O⟩) := by
      rw [← ih, show 7 * m + 7 + k = (7 * m + k + 2 + 4) + 1 by omega]
      exact eval_app (fact_global (by decide) hG.fact (by simp) _) (by decide) (evalList_cons hm1 evalList_nil)
    rw [eval_app (fact_global (by decide) hG.mul (by simp) _) (by decide) (evalList_cons (fact_n _ _) (evalList_cons hcall evalList_nil))]
    refine apply_prim (by decide) ?_
    have e2 : ((m + 1 : Nat) : Int) * (factorial m : Int) = ((factorial (m + 1) : Nat) : Int) := by simp [factorial]
    have h := ap_mul (a := ((m + 1 : Nat) : Int)) (b := (factorial m : Int)) (word_nat (by omega)) (by rw [e2]; exact word_nat hm)
    rw [e2] at h
    exact h

end

/-- The global variables after the definition of `fact`. -/
def factGlobals : List (Ref.Name × Ref.Val) := setGlobal "fact" (.clo ["n"] none [factBody] []) (initial builtinNames).globals

theorem std_builtin : ∀ x ∈ stdNames, x ∈ builtinNames := by decide +kernel

theorem factGlobals_ok : Globals factGlobals where
  eq := by rw [factGlobals, lookup_setGlobal, if_neg (by decide), lookup_initial, if_pos (std_builtin _ (by decide))]
  mul := by rw [factGlobals, lookup_setGlobal, if_neg (by decide), lookup_initial, if_pos (std_builtin _ (by decide))]
  sub := by rw [factGlobals, lookup_setGlobal, if_neg (by decide), lookup_initial, if_pos (std_builtin _ (by decide))]
  fact := by rw [factGlobals, lookup_setGlobal, if_pos rfl]

theorem fact_means (m : Nat) (hm : factorial m < 2 ^ 63) : Means [factDef, factCall m] (.val (.num (factorial m))) := by
  obtain ⟨cells', h⟩ := fact_apply (O := []) factGlobals_ok m hm 0 []
  refine ⟨7 * m + 7 + 0 + 1, ?_⟩
  have h1 : eval standard (7 * m + 7 + 0 + 1) [] (.app (.var "fact") [.const (.num m)]) ⟨[], factGlobals, []⟩ = .val (.num (factorial m), ⟨cells', factGlobals, []⟩) := by
    rw [← h, show 7 * m + 7 + 0 = 7 * m + 5 + 1 + 1 by omega]
    exact eval_app (eval_var (v := .clo ["n"] none [factBody] []) (by simp [look, factGlobals_ok.fact]) (by simp)) rfl (evalList_cons rfl evalList_nil)
  show Ans.bind (Ans.bind (.val (Ref.Val.unspecified, (⟨[], factGlobals, []⟩ : Store))) fun q => eval standard (7 * m + 7 + 0 + 1) [] (.app (.var "fact") [.const (.num m)]) q.2) _ = _
  simp only [Ans.bind, h1]

theorem fact_ok (m : Nat) : ∀ f ∈ [factDef, factCall m], f.Ok Registered := by
  have hf : ∀ a, ¬ Registered "fact" a := by
    rintro a ⟨r, hr, h, -⟩
    have : "fact" ∉ builtinNames := by decide +kernel
    exact this (List.mem_map.2 ⟨r, hr, h⟩)
  intro f h
  simp only [List.mem_cons, List.not_mem_nil, or_false] at h
  rcases h with rfl | rfl
  · refine ⟨by decide, hf, ?_⟩
    simp [Exp.Ok, Exp.Oks, Exp.BodyOk, defs, factBody]
    decide
  · simp [factCall, Form.Ok, Exp.Ok, Exp.BodyOk, defs, Exp.Oks]
    decide

end RefDemo

open RefDemo in
/-- **C138**, for a program: after `(define (fact n) ...)`, `(fact m)` is the factorial of `m` whenever that is a 64-bit integer. -/
theorem c138_factorial (hP : HasStd P F) (x : σ) (m : Nat) (hm : factorial m < 2 ^ 63) (o : Out V) :
    Outcome P x [factDef, factCall m] o ↔ o = .ok (.num (factorial m)) := by
  obtain ⟨w, hw, h⟩ := c138_value_partial hP x (fact_ok m) (fact_means m hm)
  cases hw
  exact h o


/-- **C138** fails for definitions of procedures with the name of a builtin: `(define (f ...) ...)` is not seen.  Whatever the program after it means without the
definition, it is in the interpreter. -/
theorem c138_redefine_fails (hP : HasStd P F) (x : σ) {f : Ref.Name} (hf : f ∈ builtinNames) {ps : List Ref.Name} {rest : Option Ref.Name} {body : List Exp}
    (hb : body ≠ []) {fs : List Form} (hok : ∀ f ∈ fs, f.Ok Registered) {v : Ref.Val} (h : Means fs (.val v)) :
    ∃ w, Same v w ∧ Outcome P x (.defun f ps rest body :: fs) (.ok w) := by
  obtain ⟨n, hn⟩ := h
  obtain ⟨r, hr, rfl⟩ := List.mem_map.1 hf
  have hrel : StRel (.bare x) Registered (fun _ => none) (initial builtinNames) (start x) := start_rel x
  have hrun := run_defun (P := P) hrel (f := r.name) (ps := ps) (rest := rest) hb
  have hrel' := hrel.hidden (x := r.name) (w := .proc (paramList ps rest) (listOf (Exp.toVs body)) 0) (Pscm.start_frame x) (Pscm.start_lookup hr) rfl
  have hs := sim_program (std_implements hP) n fs hok hrel'
  cases he : evalProgram standard n (initial builtinNames) fs with
  | error => rw [he] at hn; cases hn
  | unknown => rw [he] at hn; cases hn
  | val q =>
    rw [he] at hn hs
    obtain ⟨u, st⟩ := q
    cases hn
    obtain ⟨w, s', W', hm, _, hv, _⟩ := hs
    cases fs with
    | nil => cases he
    | cons g fs => exact ⟨w, hv.same, s', .next (evals_iff.2 hrun) (evalSeq_iff.1 hm)⟩

namespace RefDemo

/-- `(define (car p) 1)` -/
def carDef : Form := .defun "car" ["p"] none [.const (.num 1)]
/-- `(car '(2))` -/
def carCall : Form := .exp (.app (.var "car") [.quote (.pair (.num 2) .nil)])

/-- `(define make (lambda (n) (lambda () (set! n (+ n 1)) n)))`, `(define a (make 10))`, `(define b (make 20))`, `(a)`, `(list (a) (b))` -/
def counters : List Form :=
  [.define "make" (.lam ["n"] none [.lam [] none [.set "n" (.app (.var "+") [.var "n", .const (.num 1)]), .var "n"]]),
   .define "a" (.app (.var "make") [.const (.num 10)]),
   .define "b" (.app (.var "make") [.const (.num 20)]),
   .exp (.app (.var "a") []),
   .exp (.app (.var "list") [.app (.var "a") [], .app (.var "b") []])]

/-- `(letrec ((even (lambda (n) (or (= n 0) (odd (- n 1))))) (odd (lambda (n) (and (not (= n 0)) (even (- n 1)))))) (let* ((x 3) (y (* x 2))) (even y)))` -/
def parity : List Form :=
  [.exp (.letrec ["even", "odd"]
    [.lam ["n"] none [.or [.app (.var "=") [.var "n", .const (.num 0)], .app (.var "odd") [.app (.var "-") [.var "n", .const (.num 1)]]]],
     .lam ["n"] none [.and [.app (.var "not") [.app (.var "=") [.var "n", .const (.num 0)]], .app (.var "even") [.app (.var "-") [.var "n", .const (.num 1)]]]]]
    [.letStar ["x", "y"] [.const (.num 3), .app (.var "*") [.var "x", .const (.num 2)]] [.app (.var "even") [.var "y"]]])]

/-- `((lambda (x . r) (begin (car (cdr r)))) 1 2)` -/
def wrong : List Form :=
  [.exp (.app (.lam ["x"] (some "r") [.begin [.app (.var "car") [.app (.var "cdr") [.var "r"]]]]) [.const (.num 1), .const (.num 2)])]

end RefDemo

open RefDemo in
/-- `(define (car p) 1)` and `(car '(2))`: 1 by the semantics, 2 in the interpreter. -/
example (hP : HasStd P F) (x : σ) : Means [carDef, carCall] (.val (.num 1)) ∧ Outcome P x [carDef, carCall] (.ok (.num 2)) := by
  refine ⟨⟨5, rfl⟩, ?_⟩
  obtain ⟨w, hw, h⟩ := c138_redefine_fails hP x (f := "car") (by decide +kernel) (ps := ["p"]) (rest := none) (body := [.const (.num 1)]) (by simp)
    (fs := [carCall]) (by simp [carCall, Form.Ok, Exp.Ok, Exp.BodyOk, defs, Exp.Oks]; decide) (v := .num 2) ⟨5, rfl⟩
  cases hw
  exact h

open RefDemo in
/-- Two counters with a variable each. -/
example (hP : HasStd P F) (x : σ) : Outcome P x counters (.ok (listOf [.num 12, .num 21])) := by
  obtain ⟨w, hw, h⟩ := c138_value_partial hP x (fs := counters) (by simp [counters, Form.Ok, Exp.Ok, Exp.BodyOk, defs, Exp.Oks]; decide) (v := Ref.Val.list [.num 12, .num 21]) ⟨20, rfl⟩
  obtain ⟨_, _, rfl, rfl, _, _, rfl, rfl, rfl⟩ := hw
  exact (h _).2 rfl

open RefDemo in
example (hP : HasStd P F) (x : σ) : Outcome P x parity (.ok (.bool true)) := by
  obtain ⟨w, hw, h⟩ := c138_value_partial hP x (fs := parity) (by simp [parity, Form.Ok, Exp.Ok, Exp.BodyOk, defs, Exp.Oks]; decide) (v := .bool true) (means_of 150 (.bool true) (by decide +kernel))
  cases hw
  exact (h _).2 rfl

open RefDemo in
example (hP : HasStd P F) (x : σ) : ∃ k a, Outcome P x wrong (.stop (.err none k a)) := by
  obtain ⟨k, a, h⟩ := c138_error_partial hP x (fs := wrong) (by simp [wrong, Form.Ok, Exp.Ok, Exp.BodyOk, defs, Exp.Oks]; decide) ⟨20, rfl⟩
  exact ⟨k, a, (h _).2 rfl⟩

/-- **C138** cannot be extended to calls of a datum without arguments: `(5)` is 5, not an error. -/
theorem c138_call_datum_fails (x : σ) (c : Const) : Outcome P x [.exp (.app (.const c) [])] (.ok c.toV) := by
  refine ⟨start x, .last ⟨1, ?_⟩⟩
  cases c <;> rfl

namespace RefDemo

/-- `(define (sign n) (cond ((< n 0) 'neg) ((= n 0) 'zero) (else 'pos)))`,
`(define (name s) (case s ((neg zero) 1) ((pos) (+ 1 1)) (else 3)))`, `(list (name (sign 5)) (name (sign -5)) (name 'x) (cond (#f 1)))` -/
def signs : List Form :=
  [.defun "sign" ["n"] none [.cond [.app (.var "<") [.var "n", .const (.num 0)], .app (.var "=") [.var "n", .const (.num 0)]]
      [[.quote (.sym "neg")], [.quote (.sym "zero")]] [.quote (.sym "pos")]],
   .defun "name" ["s"] none [.case (.var "s") [[.sym "neg", .sym "zero"], [.sym "pos"]]
      [[.const (.num 1)], [.app (.var "+") [.const (.num 1), .const (.num 1)]]] [.const (.num 3)]],
   .exp (.app (.var "list") [.app (.var "name") [.app (.var "sign") [.const (.num 5)]], .app (.var "name") [.app (.var "sign") [.const (.num (-5))]],
      .app (.var "name") [.quote (.sym "x")], .cond [.const (.bool false)] [[.const (.num 1)]] []])]

/-- `(let ((f 5)) (f 1))` -/
def callNumber : List Form := [.exp (.let_ ["f"] [.const (.num 5)] [.app (.var "f") [.const (.num 1)]])]

theorem not_registered {f : Ref.Name} (h : f ∉ builtinNames) (a : Int) : ¬ Registered f a := by
  rintro ⟨r, hr, e, -⟩
  exact h (List.mem_map.2 ⟨r, hr, e⟩)

end RefDemo

open RefDemo in
example (hP : HasStd P F) (x : σ) : Outcome P x signs (.ok (listOf [.num 2, .num 1, .num 3, .none])) := by
  obtain ⟨w, hw, h⟩ := c138_value_partial hP x (fs := signs)
    (by
      have h1 := @not_registered "sign" (by decide +kernel)
      have h2 := @not_registered "name" (by decide +kernel)
      simp [signs, Form.Ok, Exp.Ok, Exp.BodyOk, defs, Exp.Oks, Exp.Okss, h1, h2]; decide)
    (v := Ref.Val.list [.num 2, .num 1, .num 3, .unspecified]) ⟨20, rfl⟩
  obtain ⟨_, _, rfl, rfl, _, _, rfl, rfl, _, _, rfl, rfl, _, _, rfl, rfl, rfl⟩ := hw
  exact (h _).2 rfl

open RefDemo in
example (hP : HasStd P F) (x : σ) : ∃ k a, Outcome P x callNumber (.stop (.err none k a)) := by
  obtain ⟨k, a, h⟩ := c138_error_partial hP x (fs := callNumber) (by simp [callNumber, Form.Ok, Exp.Ok, Exp.BodyOk, defs, Exp.Oks]; decide) ⟨20, rfl⟩
  exact ⟨k, a, (h _).2 rfl⟩

namespace RefDemo

/-- `(define (sum n) (define zero 0) (define double (lambda (x) (+ x x))) (let loop ((i n) (acc zero)) (if (= i 0) acc (loop (- i 1) (+ acc (double i))))))`,
`(sum 3)` -/
def loops : List Form :=
  [.defun "sum" ["n"] none
    [.define "zero" (.const (.num 0)), .define "double" (.lam ["x"] none [.app (.var "+") [.var "x", .var "x"]]),
     .namedLet "loop" ["i", "acc"] [.var "n", .var "zero"]
      (.ite (.app (.var "=") [.var "i", .const (.num 0)]) (.var "acc")
        (.app (.var "loop") [.app (.var "-") [.var "i", .const (.num 1)], .app (.var "+") [.var "acc", .app (.var "double") [.var "i"]]]))],
   .exp (.app (.var "sum") [.const (.num 3)])]

/-- `(define x 1)`, `((lambda () (define y x) (define x 2) (+ x y)))`: the use of `x` before its definition has no meaning. -/
def early : List Form :=
  [.define "x" (.const (.num 1)),
   .exp (.app (.lam [] none [.define "y" (.var "x"), .define "x" (.const (.num 2)), .app (.var "+") [.var "x", .var "y"]]) [])]

end RefDemo

open RefDemo in
example (hP : HasStd P F) (x : σ) : Outcome P x loops (.ok (.num 12)) := by
  obtain ⟨w, hw, h⟩ := c138_value_partial hP x (fs := loops)
    (by
      have h1 := @not_registered "sum" (by decide +kernel)
      simp [loops, Form.Ok, Exp.Ok, Exp.BodyOk, defs, Exp.Oks, h1]; decide)
    (v := .num 12) (means_of 80 (.num 12) (by decide +kernel))
  cases hw
  exact (h _).2 rfl

open RefDemo in
example : ¬ ∃ a, a ≠ .unknown ∧ (evalProgram standard 20 (initial builtinNames) early).bind (fun q => .val q.1) = a := by
  rintro ⟨a, h, e⟩
  exact h (e.symm.trans rfl)

namespace RefDemo

/-- `(let ((e (assq 'b '((a 1) (b 2))))) (append (cdr e) (memq 'x '(y x z)) (list (equal? '(1 "a") (list 1 "a")) (cadr e) (list-ref '(5 6 7) 2) (max 3 9 4) (list? e))))` -/
def search : List Form :=
  [.exp (.let_ ["e"] [.app (.var "assq") [.quote (.sym "b"), .quote (.pair (.pair (.sym "a") (.pair (.num 1) .nil)) (.pair (.pair (.sym "b") (.pair (.num 2) .nil)) .nil))]]
    [.app (.var "append") [.app (.var "cdr") [.var "e"], .app (.var "memq") [.quote (.sym "x"), .quote (.pair (.sym "y") (.pair (.sym "x") (.pair (.sym "z") .nil)))],
      .app (.var "list") [.app (.var "equal?") [.quote (.pair (.num 1) (.pair (.str "a") .nil)), .app (.var "list") [.const (.num 1), .const (.str "a")]],
        .app (.var "cadr") [.var "e"], .app (.var "list-ref") [.quote (.pair (.num 5) (.pair (.num 6) (.pair (.num 7) .nil))), .const (.num 2)],
        .app (.var "max") [.const (.num 3), .const (.num 9), .const (.num 4)], .app (.var "list?") [.var "e"]]]])]

end RefDemo

open RefDemo in
example (hP : HasStd P F) (x : σ) : Outcome P x search (.ok (listOf [.num 2, .sym "x", .sym "z", .bool true, .num 2, .num 7, .num 9, .bool true])) := by
  obtain ⟨w, hw, h⟩ := c138_value_partial hP x (fs := search) (by simp [search, Form.Ok, Exp.Ok, Exp.BodyOk, defs, Exp.Oks]; decide)
    (v := Ref.Val.list [.num 2, .sym "x", .sym "z", .bool true, .num 2, .num 7, .num 9, .bool true]) ⟨20, rfl⟩
  obtain ⟨_, _, rfl, rfl, _, _, rfl, rfl, _, _, rfl, rfl, _, _, rfl, rfl, _, _, rfl, rfl, _, _, rfl, rfl, _, _, rfl, rfl, _, _, rfl, rfl, rfl⟩ := hw
  exact (h _).2 rfl

namespace RefDemo

/-- `(define (squares n) (do ((i 0 (+ i 1)) (acc '() (cons (* i i) acc))) ((= i n) acc)))`, `(define total 0)`,
`(for-each (lambda (x y) (set! total (+ total (* x y)))) '(1 2) '(3 4))`,
`(list (apply + (squares 4)) (map (lambda (x y) (- x y)) '(5 6) (list 1 2)) total)` -/
def walks : List Form :=
  [.defun "squares" ["n"] none
    [.loop ["i", "acc"] [.const (.num 0), .quote .nil]
      [[.app (.var "+") [.var "i", .const (.num 1)]], [.app (.var "cons") [.app (.var "*") [.var "i", .var "i"], .var "acc"]]]
      (.app (.var "=") [.var "i", .var "n"]) [.var "acc"] []],
   .define "total" (.const (.num 0)),
   .exp (.forEach (.lam ["x", "y"] none [.set "total" (.app (.var "+") [.var "total", .app (.var "*") [.var "x", .var "y"]])])
    [.quote (.pair (.num 1) (.pair (.num 2) .nil)), .quote (.pair (.num 3) (.pair (.num 4) .nil))]),
   .exp (.app (.var "list") [.apply (.var "+") (.app (.var "squares") [.const (.num 4)]),
    .map (.lam ["x", "y"] none [.app (.var "-") [.var "x", .var "y"]]) [.quote (.pair (.num 5) (.pair (.num 6) .nil)), .app (.var "list") [.const (.num 1), .const (.num 2)]],
    .var "total"])]

/-- `(map car 5 6)` has no meaning in the semantics, `(map (lambda (x) (car x)) '(5))` is an error. -/
def mapCar : List Form := [.exp (.map (.lam ["x"] none [.app (.var "car") [.var "x"]]) [.quote (.pair (.num 5) .nil)])]

end RefDemo

open RefDemo in
/-- Loops and traversals: 14, `(4 4)` and 11. -/
example (hP : HasStd P F) (x : σ) : Outcome P x walks (.ok (listOf [.num 14, listOf [.num 4, .num 4], .num 11])) := by
  obtain ⟨w, hw, h⟩ := c138_value_partial hP x (fs := walks)
    (by
      have h1 := @not_registered "squares" (by decide +kernel)
      have h2 := @not_registered "total" (by decide +kernel)
      simp [walks, Form.Ok, Exp.Ok, Exp.BodyOk, defs, Exp.Oks, Exp.Okss, h1, h2]; decide)
    (v := Ref.Val.list [.num 14, Ref.Val.list [.num 4, .num 4], .num 11]) (means_of 24 (.pair (.num 14) (.pair (.pair (.num 4) (.pair (.num 4) .nil)) (.pair (.num 11) .nil))) (by decide +kernel))
  obtain ⟨_, _, rfl, rfl, _, _, rfl, ⟨_, _, rfl, rfl, _, _, rfl, rfl, rfl⟩, _, _, rfl, rfl, rfl⟩ := hw
  exact (h _).2 rfl

open RefDemo in
example (hP : HasStd P F) (x : σ) : ∃ k a, Outcome P x mapCar (.stop (.err none k a)) := by
  obtain ⟨k, a, h⟩ := c138_error_partial hP x (fs := mapCar) (by simp [mapCar, Form.Ok, Exp.Ok, Exp.BodyOk, defs, Exp.Oks]; decide) ⟨20, rfl⟩
  exact ⟨k, a, (h _).2 rfl⟩

namespace RefDemo

/-- ``(define (record x . l) `(rec ,x (n ,(length l)) ,@l end))``, `(record 1 2 3)` -/
def record : List Form :=
  [.defun "record" ["x"] (some "l")
    [.quasi (.pair (.datum (.sym "rec")) (.pair (.unquote (.var "x")) (.pair (.pair (.datum (.sym "n")) (.pair (.unquote (.app (.var "length") [.var "l"])) (.datum .nil)))
      (.splice (.var "l") (.datum (.pair (.sym "end") .nil))))))],
   .exp (.app (.var "record") [.const (.num 1), .const (.num 2), .const (.num 3)])]

end RefDemo

open RefDemo in
/-- `(rec 1 (n 2) 2 3 end)` -/
example (hP : HasStd P F) (x : σ) : Outcome P x record (.ok (listOf [.sym "rec", .num 1, listOf [.sym "n", .num 2], .num 2, .num 3, .sym "end"])) := by
  obtain ⟨w, hw, h⟩ := c138_value_partial hP x (fs := record)
    (by
      have h1 := @not_registered "record" (by decide +kernel)
      simp [record, Form.Ok, Exp.Ok, Template.Ok, Datum.Plain, Exp.BodyOk, defs, Exp.Oks, h1]; decide)
    (v := Ref.Val.list [.sym "rec", .num 1, Ref.Val.list [.sym "n", .num 2], .num 2, .num 3, .sym "end"])
    (means_of 20 (.pair (.sym "rec") (.pair (.num 1) (.pair (.pair (.sym "n") (.pair (.num 2) .nil)) (.pair (.num 2) (.pair (.num 3) (.pair (.sym "end") .nil)))))) (by decide +kernel))
  obtain ⟨_, _, rfl, rfl, _, _, rfl, rfl, _, _, rfl, ⟨_, _, rfl, rfl, _, _, rfl, rfl, rfl⟩, _, _, rfl, rfl, _, _, rfl, rfl, _, _, rfl, rfl, rfl⟩ := hw
  exact (h _).2 rfl

/-- `("abc")` -/
example (x : σ) : Outcome P x [.exp (.app (.const (.str "abc")) [])] (.ok (.str "abc")) := c138_call_datum_fails x (.str "abc")

open RefDemo in
/-- 20! is the largest factorial of 64 bits. -/
example (hP : HasStd P F) (x : σ) : Outcome P x [factDef, factCall 20] (.ok (.num 2432902008176640000)) :=
  (c138_factorial hP x 20 (by decide) _).2 (by decide)

/-- There are interpreters with these builtins. -/
example (F : FArith) (P : Prims σ) : ∃ P' : Prims σ, HasStd P' F := ⟨_, withStd_has F P⟩

end Pscm
