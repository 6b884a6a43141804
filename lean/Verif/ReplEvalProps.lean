import Verif.ReplEval
import Verif.ReplEvalSpec
import Verif.ConsoleProps
/-!
# C143: a session with the read-eval-print loop shows what Scheme says
-/
namespace Pscm
open Pscm.Scr Pscm.Scr.Spec
open Pscm.Rd (D Bytes FloIO asc print)
open Pscm.Ref (Same Registered builtinNames initial printing Store evalForm StRel Fixed World VRel Event)
open Pscm.Ev hiding Name Form evalForm StRel
variable {σ : Type} {P : Prims σ} {FA : FArith} {F : FloIO} {obj : V → Bytes} {C : Console σ}

/-- What `pscm` without a file prints when this is typed: with every sufficiently large bound of the depth. -/
def ReplOutcome (P : Prims σ) (F : FloIO) (obj : V → Bytes) (C : Console σ) (x : σ) (inp seen : Bytes) : Prop :=
  ∃ N, ∀ n, N ≤ n → replOutput P F obj C n x inp = seen

namespace Scr

def itemOf (i : List Bytes × D) : Repl.Item := ⟨i.1, some i.2⟩

theorem typed_input (is : List (List Bytes × D)) : Repl.typed (is.map itemOf) = input is := by
  induction is with
  | nil => rfl
  | cons i is ih =>
    simp only [Repl.typed, input, List.map_cons, List.flatMap_cons] at ih ⊢
    rw [ih]
    rfl

theorem typed_ok {is : List (List Bytes × D)} {fs : List Ref.Form} (h : TypedForms F is fs) : ∀ i ∈ is.map itemOf, i.Ok F := by
  induction h with
  | nil => simp
  | @cons ls d f is fs hf _ ih =>
    intro i hi
    rcases List.mem_cons.1 hi with rfl | hi
    · obtain ⟨w, t, e, h1, h2, h3, h4, h5⟩ := hf.reads
      have hp := c87_whole h2 h3 h4 h5
      rw [← h1] at hp
      exact ⟨hf.some, hf.lines, hf.whole, hf.first, _, hp⟩
    · exact ih i hi

/-- Every sufficiently large bound gives this answer. -/
theorem eval_enough {v : V} {s : St σ} {q : Out ApiRes × St σ} (h : evalRun P v s = some q) : ∃ N, ∀ n, N ≤ n → pscmEval P n v s = some q := by
  obtain ⟨N, hN⟩ := (pscmEval_lub P v).lub _ _ h
  exact ⟨N, fun n hn => ((pscmEval_lub P v).mono N n hn).le _ _ hN⟩

theorem reply_value {v : Ref.Val} {w : V} {W : World} (h : VRel Registered W v w) : Reply (some v) (replyText F obj (.value w)) := by
  by_cases hu : v = .unspecified
  · subst hu
    have : w = .none := h
    subst this
    exact .unspecified
  · have e : replyText F obj (.value w) = displayText F obj w := by
      cases w with
      | none =>
        have h := h.same
        cases v with
        | unspecified => exact absurd rfl hu
        | pair a d => obtain ⟨_, _, h, _⟩ := h; cases h
        | prim x => obtain ⟨_, h⟩ := h; cases h
        | clo ps rest body ρ => obtain ⟨_, h⟩ := h; cases h
        | undefined => exact absurd h id
        | unassigned => exact absurd h id
        | _ => cases h
      | _ => rfl
    rw [e]
    exact .value hu (display_shown h.same)

theorem session_step {ls : List Bytes} {d : D} {is : List Repl.Item} {E : Repl.Eval (St σ)} {s s' : St σ} {v : Bytes} (he : E s d = some (v, s')) :
    (Repl.script E s (⟨ls, some d⟩ :: is)).flatMap (eventText F) =
      prompts ls.length ++ (print F false d ++ [10]) ++ (v ++ [10]) ++ (Repl.script E s' is).flatMap (eventText F) := by
  have hr : ∀ k, (List.replicate k (Repl.Event.prompt true)).flatMap (eventText F) = (List.replicate k (asc "  ...> ")).flatten := by
    intro k
    induction k with
    | zero => rfl
    | succ k ih => rw [List.replicate_succ, List.flatMap_cons, ih]; rfl
  simp only [Repl.script, he, List.flatMap_cons, List.flatMap_append, hr, eventText, prompts, List.append_assoc]

theorem repl_runs (hP : HasStd P FA) (hO : HasOut P F obj C) {fs : List Ref.Form} {l : List (List Event × Option Ref.Val)} {st st' : Store} (hok : ∀ f ∈ fs, f.Ok Registered)
    (hv : Runs st fs l st') : ∀ {is : List (List Bytes × D)} {W : World} {s : St σ}, TypedForms F is fs → StRel (since C s.ext st.out) Registered W st s →
      ∃ t N, Dialogue F is l t ∧ ∀ n, N ≤ n → (Repl.script (replEval P F obj C n) s (is.map itemOf)).flatMap (eventText F) = t := by
  induction hv with
  | nil =>
    intro is W s ht h
    cases ht
    exact ⟨_, 0, .bye, fun n _ => rfl⟩
  | @cons st n f v st1 es fs l st2 he hes _ ih =>
    intro is W s ht h
    cases ht with
    | @cons ls d _ is _ hf hts =>
    obtain ⟨w, t, s1, W1, hm, hw, hr, hsh, hg⟩ := console_form hP hO (hok f (.head _)) he h
    rw [hes, List.drop_left] at hsh
    have h2 : StRel (since C s1.ext st1.out) Registered W1 st1 s1 := rebase (X' := since C s1.ext st1.out) hr ⟨rfl, rfl⟩ since_self
    obtain ⟨u, N1, hu, hx⟩ := ih (fun g hg => hok g (.tail _ hg)) hts h2
    obtain ⟨N2, hN⟩ := eval_enough hm
    refine ⟨_, max N1 N2, .turn hsh (reply_value (F := F) (obj := obj) hw) hu, fun n hn => ?_⟩
    have hE : replEval P F obj C n s d = some (t ++ asc " --> " ++ replyText F obj (.value w), s1) := by
      simp only [replEval, hf.datum, hN n (by omega), hg, List.drop_left]
    rw [← hx n (by omega)]
    exact session_step hE
  | @error st n f st1 es fs l st2 he hes _ ih =>
    intro is W s ht h
    cases ht with
    | @cons ls d _ is _ hf hts =>
    obtain ⟨k, a, t, s1, W1, hm, hr, hsh, hg⟩ := console_wrong hP hO (hok f (.head _)) he h
    rw [hes, List.drop_left] at hsh
    have h2 : StRel (since C s1.ext st1.out) Registered W1 st1 s1 := rebase (X' := since C s1.ext st1.out) hr ⟨rfl, rfl⟩ since_self
    obtain ⟨u, N1, hu, hx⟩ := ih (fun g hg => hok g (.tail _ hg)) hts h2
    obtain ⟨N2, hN⟩ := eval_enough hm
    refine ⟨_, max N1 N2, .turn hsh .error hu, fun n hn => ?_⟩
    have hE : replEval P F obj C n s d = some (t ++ asc " --> " ++ replyText F obj (.failed k a), s1) := by
      simp only [replEval, hf.datum, hN n (by omega), hg, List.drop_left]
    rw [← hx n (by omega)]
    exact session_step hE

end Scr

/-- **C143** When the texts of forms are typed, on as many lines as one likes, the REPL shows for each form the prompts of its lines, the expression, what the calls of
`display`, `write` and `newline` in it print, and its value, or `<null>` if it is an error; forms are evaluated one after the other, and an error does not end the
session. -/
theorem c143_session_partial (hP : HasStd P FA) (hO : HasOut P F obj C) (x : σ) {is : List (List Bytes × D)} {fs : List Ref.Form} {l : List (List Event × Option Ref.Val)}
    {st : Store} (ht : TypedForms F is fs) (hok : ∀ f ∈ fs, f.Ok Registered) (hv : Runs (initial builtinNames) fs l st) :
    ∃ t, Dialogue F is l t ∧ ∀ seen, ReplOutcome P F obj C x (input is) seen ↔ seen = t := by
  obtain ⟨t, N, hd, h⟩ := repl_runs (F := F) (obj := obj) hP hO hok hv ht (console_start x)
  have key : ∀ n, N ≤ n → replOutput P F obj C n x (input is) = t := by
    intro n hn
    unfold replOutput
    rw [← typed_input, Repl.c111_session_partial _ _ _ (typed_ok ht)]
    exact h n hn
  refine ⟨t, hd, fun seen => ⟨?_, ?_⟩⟩
  · rintro ⟨M, hM⟩
    rw [← hM (max M N) (Nat.le_max_left _ _), key _ (Nat.le_max_right _ _)]
  · rintro rfl
    exact ⟨N, key⟩

/-! ## A case -/

namespace Scr.Demo
open Pscm.Rd.Spec

theorem line_ok {l : Bytes} (h : (decide (l.length ≤ 4094) && !l.contains 10 && !l.contains 0) = true) : Repl.Line l := by
  simp only [Bool.and_eq_true, decide_eq_true_eq, Bool.not_eq_true', List.contains_eq_mem, decide_eq_false_iff_not] at h
  exact ⟨h.1.1, h.1.2, h.2⟩

/-- `(newline)` on one line. -/
theorem typed_newline : TypedForm F [asc "(newline)"] (.pair (.sym (asc "newline")) .nil) (.exp (.app (.var "newline") [])) where
  some := by simp
  lines := by
    intro l hl
    rw [List.mem_singleton] at hl
    subst hl
    exact line_ok (by decide +kernel)
  whole := (Repl.balanced_iff _).1 (by decide +kernel)
  first := by
    intro p q h hp hq
    cases p with
    | nil => exact absurd rfl hp
    | cons a p =>
      cases p with
      | nil => simp only [List.cons_append, List.nil_append, List.cons.injEq] at h; exact absurd h.2.symm hq
      | cons b p => simp at h
  reads := ⟨[], asc "(newline)", [10], by decide +kernel, .nil,
    .atom (token (v := listOf [.sym "newline"]) (by decide +kernel) (by decide +kernel) (by simp) rfl),
    fun u h => absurd (congrArg List.head? h) (show ¬ List.head? (asc "(newline)") = some (44 : UInt8) by decide +kernel), .space (by decide) .nil⟩
  datum := by decide +kernel

/-- `(car 5)` on two lines. -/
theorem typed_car : TypedForm F [asc "(car", asc "5)"] (.pair (.sym (asc "car")) (.pair (.num 5) .nil)) (.exp (.app (.var "car") [.const (.num 5)])) where
  some := by simp
  lines := by
    intro l hl
    simp only [List.mem_cons, List.not_mem_nil, or_false] at hl
    rcases hl with rfl | rfl <;> exact line_ok (by decide +kernel)
  whole := (Repl.balanced_iff _).1 (by decide +kernel)
  first := by
    intro p q h hp hq
    cases p with
    | nil => exact absurd rfl hp
    | cons a p =>
      simp only [List.cons_append, List.cons.injEq] at h
      obtain ⟨rfl, h⟩ := h
      cases p with
      | nil => exact fun hc => absurd ((Repl.balanced_iff _).2 hc) (by decide +kernel)
      | cons b p =>
        simp only [List.cons_append, List.cons.injEq] at h
        cases p with
        | nil => exact absurd h.2.symm hq
        | cons c p => simp at h
  reads := ⟨[], (40 :: ([] ++ ((asc "car" ++ ([10] ++ (asc "5" ++ ([] ++ [])))) ++ [41]))), [10], by decide +kernel, .nil,
    .list .nil (.listNext (.atom (token (v := .sym "car") (by decide +kernel) (by decide +kernel)
        (fun t h => absurd (congrArg (fun d => match d with | .sym s => s.head? | _ => none) h) (show ¬ List.head? (asc "car") = some (46 : UInt8) by decide +kernel)) rfl))
      (.space (by decide) .nil)
      (.listNext (.atom (token (v := .num 5) (by decide +kernel) (by decide +kernel) (by simp) rfl)) .nil .listEnd (.inr (.inl rfl))) (.inl (by simp))),
    fun u h => absurd (congrArg List.head? h) (show ¬ List.head? _ = some (44 : UInt8) by decide +kernel), .space (by decide) .nil⟩
  datum := by decide +kernel

theorem typed_runs : ∃ st, Runs (initial builtinNames) [.exp (.app (.var "car") [.const (.num 5)]), .exp (.app (.var "newline") [])]
    [([], none), ([.newline], some .unspecified)] st :=
  ⟨_, .error (n := 10) (st1 := initial builtinNames) rfl rfl (.cons (n := 10) (st1 := { initial builtinNames with out := [.newline] }) rfl rfl .nil)⟩

end Scr.Demo

/-- `(car 5)` typed on two lines, an error, and then `(newline)`. -/
example (hP : HasStd P FA) (hO : HasOut P F obj C) (x : σ) : ∃ t e1 e2, ShownAll [.newline] t ∧
    ReplOutcome P F obj C x (asc "(car\n5)\n(newline)\n") (asc "pscm>   ...> " ++ e1 ++ asc "\n --> <null>\npscm> " ++ e2 ++ [10] ++ t ++ asc " --> none\npscm> \n") := by
  obtain ⟨st, hv⟩ := Scr.Demo.typed_runs
  obtain ⟨t, ht, h⟩ := c143_session_partial (F := F) hP hO x (.cons Scr.Demo.typed_car (.cons Scr.Demo.typed_newline .nil))
    (by simp [Ref.Form.Ok, Ref.Exp.Ok, Ref.Exp.Oks]; decide) hv
  cases ht with
  | turn h1 hr1 ht =>
    cases ht with
    | turn h2 hr2 ht =>
      cases ht
      cases hr1
      cases hr2 with
      | value hu => exact absurd rfl hu
      | unspecified =>
        generalize hz : ([] : List Event) = z at h1
        cases h1 with
        | snoc _ _ => exact absurd (congrArg List.length hz) (by simp)
        | nil =>
          refine ⟨_, print F false (.pair (.sym (asc "car")) (.pair (.num 5) .nil)), print F false (.pair (.sym (asc "newline")) .nil), h2, ?_⟩
          have hi : asc "(car\n5)\n(newline)\n" = input [([asc "(car", asc "5)"], .pair (.sym (asc "car")) (.pair (.num 5) .nil)), ([asc "(newline)"], .pair (.sym (asc "newline")) .nil)] := by
            decide +kernel
          rw [hi]
          refine (h _).2 ?_
          have e1 : asc "pscm>   ...> " = asc "pscm> " ++ asc "  ...> " := by decide +kernel
          have e2 : asc "\n --> <null>\npscm> " = [10] ++ asc " --> " ++ asc "<null>" ++ [10] ++ asc "pscm> " := by decide +kernel
          have e3 : asc " --> none\npscm> \n" = asc " --> " ++ asc "none" ++ [10] ++ asc "pscm> " ++ [10] := by decide +kernel
          rw [e1, e2, e3]
          simp [prompts]

end Pscm
