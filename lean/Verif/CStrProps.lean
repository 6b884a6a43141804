import Verif.CStr
import Verif.ScriptProps
/-!
# C141: `scm_c_eval_string` evaluates program texts

The reference semantics is `RefSem`, texts of programs are `ProgramText` (`ScriptSpec`).
-/
namespace Pscm
open Pscm.Rd (Bytes FloIO parseAll asc)
open Pscm.Ref (Store standard initial builtinNames Registered evalProgram)
open Pscm.Ev hiding Name Form evalForm StRel
open Pscm.Scr Pscm.Scr.Spec
variable {σ : Type} {P : Prims σ} {FA : FArith} {F : FloIO}

/-! ## Specification -/

/-- The outcome of calls of `scm_c_eval_string` on texts, one after the other, in a state. -/
def CallsEnd (P : Prims σ) (F : FloIO) (s : St σ) (texts : List Bytes) (o : Out (List (Option V))) (s' : St σ) : Prop := ∃ n, cSession P F n texts s = some (o, s')

/-- The outcome in the initial state. -/
def CallsOutcome (P : Prims σ) (F : FloIO) (x : σ) (texts : List Bytes) (o : Out (List (Option V))) : Prop := ∃ s, CallsEnd P F (start x) texts o s

/-- The texts are those of the programs. -/
inductive ProgramTexts (F : FloIO) : List Bytes → List (List Ref.Form) → Prop
  | nil : ProgramTexts F [] []
  | cons {t ts fs fss} : ProgramText F t (fs.map Ref.Form.toV) → ProgramTexts F ts fss → ProgramTexts F (t :: ts) (fs :: fss)

/-- The values of programs, evaluated one after the other: of each, the value of its last form. -/
inductive Meanings : Store → List (List Ref.Form) → List Ref.Val → Store → Prop
  | nil {st} : Meanings st [] [] st
  | cons {st n fs v st1 fss vs st2} : evalProgram standard n st fs = .val (v, st1) → Meanings st1 fss vs st2 → Meanings st (fs :: fss) (v :: vs) st2

/-- The answers are these values, in this order. -/
inductive CAnswers : List Ref.Val → List (Option V) → Prop
  | nil : CAnswers [] []
  | cons {v vs w rs} : Ref.Same v w → CAnswers vs rs → CAnswers (v :: vs) (some w :: rs)

/-! ## Lemmas -/

namespace Scr

/-- `scm_c_eval_string` on a text that reads as `xs`, without a limit of depth. -/
noncomputable def cRun (P : Prims σ) : List V → EM σ (Option V)
  | [] => pure none
  | x :: xs => do
    let v ← evalSeq (run P) 0 (x :: xs)
    pure (some v)

theorem evalSeq_lub (P : Prims σ) (xs : List V) : EM.Lub (fun n => evalSeq (ev P n) 0 xs) (evalSeq (run P) 0 xs) := by
  induction xs with
  | nil => exact EM.lub_const _
  | cons x xs ih =>
    cases xs with
    | nil => exact run_lub P _
    | cons y ys => exact EM.bind_lub (run_lub P _) fun _ => ih

theorem cRun_lub {xs : List V} {text : Bytes} (h : ProgramText F text xs) : EM.Lub (fun n => evalCString P F n (some text)) (cRun P xs) := by
  obtain ⟨ds, r, h1, h2⟩ := program_reads h (text.length + 1) (Nat.lt_succ_self _)
  cases xs with
  | nil =>
    simp only [evalCString, h1, h2]
    exact EM.lub_const _
  | cons x xs =>
    simp only [evalCString, h1, h2]
    exact EM.bind_lub (evalSeq_lub P _) fun _ => EM.lub_const _

/-- Calls on texts that read as `xss`, without a limit of depth. -/
noncomputable def cSessionRun (P : Prims σ) : List (List V) → EM σ (List (Option V))
  | [] => pure []
  | xs :: xss => do
    let r ← cRun P xs
    let rs ← cSessionRun P xss
    pure (r :: rs)

inductive Reads (F : FloIO) : List Bytes → List (List V) → Prop
  | nil : Reads F [] []
  | cons {t ts xs xss} : ProgramText F t xs → Reads F ts xss → Reads F (t :: ts) (xs :: xss)

theorem cSession_lub {texts : List Bytes} {xss : List (List V)} (h : Reads F texts xss) : EM.Lub (fun n => cSession P F n texts) (cSessionRun P xss) := by
  induction h with
  | nil => exact EM.lub_const _
  | cons h _ ih => exact EM.bind_lub (cRun_lub h) fun _ => EM.bind_lub ih fun _ => EM.lub_const _

theorem evalSeq_le_run (P : Prims σ) (n : Nat) (xs : List V) : (evalSeq (ev P n) 0 xs).Le (evalSeq (run P) 0 xs) := by
  induction xs with
  | nil => exact EM.le_refl _
  | cons x xs ih =>
    cases xs with
    | nil => exact ev_le_run P n _
    | cons y ys => exact EM.bind_le (ev_le_run P n _) fun _ => ih

theorem cRun_le {xs : List V} {text : Bytes} (h : ProgramText F text xs) (n : Nat) : (evalCString P F n (some text)).Le (cRun P xs) := by
  obtain ⟨ds, r, h1, h2⟩ := program_reads h (text.length + 1) (Nat.lt_succ_self _)
  cases xs with
  | nil =>
    simp only [evalCString, h1, h2]
    exact EM.le_refl _
  | cons x xs =>
    simp only [evalCString, h1, h2]
    exact EM.bind_le (evalSeq_le_run P n _) fun _ => EM.le_refl _

theorem cSession_le {texts : List Bytes} {xss : List (List V)} (h : Reads F texts xss) (n : Nat) : (cSession P F n texts).Le (cSessionRun P xss) := by
  induction h with
  | nil => exact EM.le_refl _
  | cons h _ ih => exact EM.bind_le (cRun_le h n) fun _ => EM.bind_le ih fun _ => EM.le_refl _

theorem calls_iff {texts : List Bytes} {xss : List (List V)} (h : Reads F texts xss) {s s' : St σ} {o : Out (List (Option V))} :
    CallsEnd P F s texts o s' ↔ cSessionRun P xss s = some (o, s') := by
  constructor
  · rintro ⟨n, hn⟩
    exact (cSession_le h n).le s _ hn
  · intro hr
    exact (cSession_lub h).lub _ _ hr

theorem _root_.Pscm.ProgramTexts.reads {texts : List Bytes} {fss : List (List Ref.Form)} (h : ProgramTexts F texts fss) : Reads F texts (fss.map fun fs => fs.map Ref.Form.toV) := by
  induction h with
  | nil => exact .nil
  | cons h _ ih => exact .cons h ih

theorem Reads.append {ts ts' : List Bytes} {xss yss : List (List V)} (h : Reads F ts xss) (k : Reads F ts' yss) : Reads F (ts ++ ts') (xss ++ yss) := by
  induction h with
  | nil => exact k
  | cons h _ ih => exact .cons h ih

theorem cRun_program {fs : List Ref.Form} {s s' : St σ} {o : Out V} (hne : fs ≠ []) (h : evalSeq (run P) 0 (fs.map Ref.Form.toV) s = some (o, s')) :
    cRun P (fs.map Ref.Form.toV) s = some ((match o with | .ok v => .ok (some v) | .stop e => .stop e), s') := by
  cases fs with
  | nil => exact absurd rfl hne
  | cons f fs =>
    simp only [List.map_cons] at h ⊢
    simp only [cRun, bind_apply, h]
    cases o <;> rfl

theorem calls_values (hP : HasStd P FA) {X0 : Ref.Fixed σ} {fss : List (List Ref.Form)} {vs : List Ref.Val} {st st' : Store}
    (hok : ∀ fs ∈ fss, ∀ f ∈ fs, f.Ok Registered) (hv : Meanings st fss vs st') : ∀ {W : Ref.World} {s : St σ}, Ref.StRel X0 Registered W st s →
      ∃ rs s' W', CAnswers vs rs ∧ Ref.StRel X0 Registered W' st' s' ∧
        ∀ xss, cSessionRun P (fss.map (fun fs => fs.map Ref.Form.toV) ++ xss) s = (cSessionRun P xss >>= fun rs' => pure (rs ++ rs')) s' := by
  induction hv with
  | nil =>
    intro W s h
    refine ⟨[], s, W, .nil, h, fun xs => ?_⟩
    show cSessionRun P xs s = _
    rw [bind_apply]
    cases cSessionRun P xs s with
    | none => rfl
    | some q => obtain ⟨o, s'⟩ := q; cases o <;> rfl
  | @cons st n fs v st1 fss vs st2 he _ ih =>
    intro W s h
    have hs := Ref.sim_program (P := P) (B := standard) (Ref.std_implements hP) n fs (hok fs (.head _)) h
    rw [he] at hs
    obtain ⟨w, s1, W1, hm, _, hv, hr⟩ := hs
    have hne : fs ≠ [] := by rintro rfl; simp [evalProgram] at he
    obtain ⟨rs, s2, W2, hl, hr2, hx⟩ := ih (fun g hg => hok g (.tail _ hg)) hr
    refine ⟨some w :: rs, s2, W2, .cons hv.same hl, hr2, fun xss => ?_⟩
    show (cRun P (fs.map Ref.Form.toV) >>= fun r => cSessionRun P (fss.map (fun fs => fs.map Ref.Form.toV) ++ xss) >>= fun l => pure (r :: l)) s = _
    rw [bind_apply, cRun_program hne hm]
    show (cSessionRun P (fss.map (fun fs => fs.map Ref.Form.toV) ++ xss) >>= fun l => pure (some w :: l)) s1 = _
    rw [bind_apply, hx, bind_apply, bind_apply]
    cases cSessionRun P xss s2 with
    | none => rfl
    | some q => obtain ⟨o, s'⟩ := q; cases o <;> rfl

theorem evalSeq_append {rec : Rec σ} (e : Nat) (xs : List V) (y : V) (ys : List V) (s : St σ) (hne : xs ≠ []) :
    evalSeq rec e (xs ++ y :: ys) s = (evalSeq rec e xs >>= fun _ => evalSeq rec e (y :: ys)) s := by
  induction xs generalizing s with
  | nil => exact absurd rfl hne
  | cons x xs ih =>
    cases xs with
    | nil => rfl
    | cons z zs =>
      show (rec (.eval e x) >>= fun _ => evalSeq rec e (z :: zs ++ y :: ys)) s = _
      rw [bind_apply]
      show _ = ((rec (.eval e x) >>= fun _ => evalSeq rec e (z :: zs)) >>= fun _ => evalSeq rec e (y :: ys)) s
      rw [bind_apply, bind_apply]
      cases rec (.eval e x) s with
      | none => rfl
      | some q =>
        obtain ⟨o, s1⟩ := q
        cases o with
        | stop => rfl
        | ok v => exact ih s1 (by simp)

end Scr

/-! ## The properties -/

/-- **C141** Calls of `scm_c_eval_string` on the texts of programs, one after the other, answer the value of the last form of each, if the semantics of Scheme gives
the programs values; what a call defines is there in the next ones. -/
theorem c141_values_partial (hP : HasStd P FA) (x : σ) {texts : List Bytes} {fss : List (List Ref.Form)} {vs : List Ref.Val} {st : Store} (ht : ProgramTexts F texts fss)
    (hok : ∀ fs ∈ fss, ∀ f ∈ fs, f.Ok Registered) (hv : Meanings (initial builtinNames) fss vs st) :
    ∃ rs, CAnswers vs rs ∧ ∀ o, CallsOutcome P F x texts o ↔ o = .ok rs := by
  obtain ⟨rs, s', W', hl, _, hx⟩ := calls_values hP (X0 := .bare x) hok hv (Ref.start_rel x)
  have hrun : cSessionRun P (fss.map fun fs => fs.map Ref.Form.toV) (start x) = some (.ok rs, s') := by
    have := hx []
    rw [List.append_nil] at this
    rw [this]
    simp [bind_apply, cSessionRun, pure_apply]
  refine ⟨rs, hl, fun o => ⟨?_, ?_⟩⟩
  · rintro ⟨s, h⟩
    rw [calls_iff ht.reads, hrun] at h
    cases h
    rfl
  · rintro rfl
    exact ⟨s', (calls_iff ht.reads).2 hrun⟩

/-- **C141** If a program is an error in the semantics, the call does not return: the error goes to the innermost `catch`; without one it is uncaught. -/
theorem c141_error_partial (hP : HasStd P FA) (x : σ) {texts : List Bytes} {t : Bytes} {fss : List (List Ref.Form)} {fs : List Ref.Form} {vs : List Ref.Val} {st : Store} {n : Nat}
    (ht : ProgramTexts F texts fss) (htf : ProgramText F t (fs.map Ref.Form.toV)) (hok : ∀ gs ∈ fs :: fss, ∀ g ∈ gs, g.Ok Registered)
    (hv : Meanings (initial builtinNames) fss vs st) {o : Option Store} (he : evalProgram standard n st fs = .error o) :
    ∃ k a, ∀ o, CallsOutcome P F x (texts ++ [t]) o ↔ o = .stop (.err none k a) := by
  obtain ⟨rs, s1, W', hl, hr, hx⟩ := calls_values hP (X0 := .bare x) (fun g hg => hok g (.tail _ hg)) hv (Ref.start_rel x)
  have hs := Ref.sim_program (P := P) (B := standard) (Ref.std_implements hP) n fs (hok fs (.head _)) hr
  rw [he] at hs
  obtain ⟨k, a, s2, hm, _⟩ := hs
  have hne : fs ≠ [] := by rintro rfl; simp [evalProgram] at he
  have hrun : cSessionRun P (fss.map (fun fs => fs.map Ref.Form.toV) ++ [fs.map Ref.Form.toV]) (start x) = some (.stop (.err none k a), s2) := by
    rw [hx, bind_apply]
    simp only [cSessionRun, bind_apply, cRun_program hne hm]
    rfl
  have hreads := Reads.append ht.reads (.cons htf .nil)
  refine ⟨k, a, fun o => ⟨?_, ?_⟩⟩
  · rintro ⟨s, h⟩
    rw [calls_iff hreads, hrun] at h
    cases h
    rfl
  · rintro rfl
    exact ⟨s2, (calls_iff hreads).2 hrun⟩

/-- **C141** One call on a text is the same as two calls on texts of its two halves, whatever the state and the builtins: the second answers what the one call answers. -/
theorem c141_split (P : Prims σ) (F : FloIO) (s s' : St σ) {t t1 t2 : Bytes} {xs ys : List V} (h : ProgramText F t (xs ++ ys)) (h1 : ProgramText F t1 xs) (h2 : ProgramText F t2 ys)
    (hx : xs ≠ []) (hy : ys ≠ []) (w : V) :
    CallsEnd P F s [t] (.ok [some w]) s' ↔ ∃ u, CallsEnd P F s [t1, t2] (.ok [some u, some w]) s' := by
  simp only [calls_iff (.cons h .nil), calls_iff (.cons h1 (.cons h2 .nil))]
  cases xs with
  | nil => exact absurd rfl hx
  | cons x xs =>
  cases ys with
  | nil => exact absurd rfl hy
  | cons y ys =>
    have e := evalSeq_append (rec := run P) 0 (x :: xs) y ys s (by simp)
    simp only [List.cons_append] at e
    simp only [cSessionRun, cRun, List.cons_append, bind_apply, e, pure_apply]
    cases evalSeq (run P) 0 (x :: xs) s with
    | none => simp
    | some q =>
      obtain ⟨o, s1⟩ := q
      cases o with
      | stop => simp
      | ok u =>
        simp only []
        cases evalSeq (run P) 0 (y :: ys) s1 with
        | none => simp
        | some q =>
          obtain ⟨o, s2⟩ := q
          cases o <;> simp

/-- **C141** fails for texts without expressions: the answer is the null pointer, not the unspecified value, in every state. -/
theorem c141_empty_fails (P : Prims σ) (s s' : St σ) {t : Bytes} (h : ProgramText F t []) (o : Out (List (Option V))) :
    CallsEnd P F s [t] o s' ↔ o = .ok [none] ∧ s' = s := by
  rw [calls_iff (.cons h .nil)]
  simp only [cSessionRun, cRun, bind_apply, pure_apply, Option.some.injEq, Prod.mk.injEq]
  exact ⟨fun ⟨a, b⟩ => ⟨a.symm, b.symm⟩, fun ⟨a, b⟩ => ⟨a.symm, b.symm⟩⟩

/-! ## Cases -/

namespace Scr.Demo

theorem call_text : ProgramText F (listing F [.pair (.sym (asc "fact")) (.pair (.num 5) .nil)]) ([RefDemo.factCall 5].map Ref.Form.toV) := by
  cases bad_texts with
  | cons _ h =>
    cases h with
    | cons _ h => exact c140_text (fs := [RefDemo.factCall 5]) h

theorem bad_text : ProgramText F (listing F [.pair (.sym (asc "fact")) .nil]) ([badCall].map Ref.Form.toV) := by
  cases bad_texts with
  | cons _ h =>
    cases h with
    | cons h _ => exact c140_text (fs := [badCall]) (.cons h .nil)

theorem def_text : ProgramText F (listing F [defTree]) ([RefDemo.factDef].map Ref.Form.toV) := by
  cases bad_texts with
  | cons h _ => exact c140_text (fs := [RefDemo.factDef]) (.cons h .nil)

/-- Two programs with these values, evaluated by the kernel. -/
theorem two_values {st : Store} {fs gs : List Ref.Form} {d e : Ref.Datum} (n : Nat)
    (h : (match evalProgram standard n st fs with | .val q => RefDemo.isDatum q.1 d && RefDemo.givesDatum e (evalProgram standard n q.2 gs) | _ => false) = true) :
    ∃ st', Meanings st [fs, gs] [d.toVal, e.toVal] st' := by
  split at h
  · rename_i q hq
    simp only [Bool.and_eq_true] at h
    obtain ⟨h1, h2⟩ := h
    cases hg : evalProgram standard n q.2 gs with
    | val r =>
      rw [hg] at h2
      refine ⟨r.2, .cons (n := n) (st1 := q.2) ?_ (.cons (n := n) ?_ .nil)⟩
      · rw [hq, ← RefDemo.isDatum_eq h1]
      · rw [hg, ← RefDemo.isDatum_eq h2]
    | _ => rw [hg] at h2; cases h2
  · cases h

end Scr.Demo

/-- A first call that defines `fact` and calls it, and a second one that calls it again: 120 twice. -/
example (hP : HasStd P FA) (x : σ) : CallsOutcome P F x [Scr.Demo.text, listing F [.pair (.sym (asc "fact")) (.pair (.num 5) .nil)]] (.ok [some (.num 120), some (.num 120)]) := by
  have hv : ∃ st, Meanings (initial builtinNames) [[RefDemo.factDef, RefDemo.factCall 5], [RefDemo.factCall 5]] [.num 120, .num 120] st :=
    Scr.Demo.two_values (d := .num 120) (e := .num 120) 60 (by decide +kernel)
  obtain ⟨st, hv⟩ := hv
  obtain ⟨rs, hr, h⟩ := c141_values_partial hP x (.cons (Scr.Demo.text_ok (F := F)) (.cons Scr.Demo.call_text .nil))
    (by
      intro fs hfs f hf
      refine RefDemo.fact_ok 5 f ?_
      simp only [List.mem_cons, List.not_mem_nil, or_false] at hfs
      rcases hfs with rfl | rfl
      · exact hf
      · exact .tail _ hf) hv
  cases hr with
  | cons h1 hr =>
    cases hr with
    | cons h2 hr =>
      cases hr
      cases h1
      cases h2
      exact (h _).2 rfl

/-- `(fact)` after the definition is an error that nobody catches. -/
example (hP : HasStd P FA) (x : σ) : ∃ k a, CallsOutcome P F x [listing F [Scr.Demo.defTree], listing F [.pair (.sym (asc "fact")) .nil]] (.stop (.err none k a)) := by
  have hv : ∃ st, Meanings (initial builtinNames) [[RefDemo.factDef]] [.unspecified] st ∧ ∃ o, evalProgram standard 20 st [Scr.Demo.badCall] = .error o :=
    ⟨_, .cons (n := 0) rfl .nil, _, rfl⟩
  obtain ⟨st, hv, o, he⟩ := hv
  obtain ⟨k, a, h⟩ := c141_error_partial hP x (.cons (Scr.Demo.def_text (F := F)) .nil) Scr.Demo.bad_text
    (by
      intro gs hgs g hg
      simp only [List.mem_cons, List.not_mem_nil, or_false] at hgs
      rcases hgs with rfl | rfl
      · simp only [List.mem_cons, List.not_mem_nil, or_false] at hg
        subst hg
        simp [Scr.Demo.badCall, Ref.Form.Ok, Ref.Exp.Ok, Ref.Exp.Oks]; decide
      · exact RefDemo.fact_ok 5 g (by simp only [List.mem_cons, List.not_mem_nil, or_false] at hg ⊢; exact .inl hg)) hv he
  exact ⟨k, a, (h _).2 rfl⟩

/-- The two forms of the text of the factorial program, in one call or in two. -/
example (P : Prims σ) (s s' : St σ) (w : V) : CallsEnd P F s [Scr.Demo.text] (.ok [some w]) s' ↔
    ∃ u, CallsEnd P F s [listing F [Scr.Demo.defTree], listing F [.pair (.sym (asc "fact")) (.pair (.num 5) .nil)]] (.ok [some u, some w]) s' :=
  c141_split P F s s' (Scr.Demo.text_ok (F := F)) Scr.Demo.def_text Scr.Demo.call_text (by simp) (by simp) w

/-- A comment. -/
example (P : Prims σ) (s : St σ) : CallsEnd P F s [asc "; nothing\n "] (.ok [none]) s := by
  have e : asc "; nothing\n " = 59 :: (asc " nothing" ++ 10 :: [32]) := by decide +kernel
  rw [e]
  exact (c141_empty_fails P s s (.done ⟨_, [], (List.append_nil _).symm, .comment (by decide +kernel) (.space (by decide) .nil), .inl rfl⟩ (by decide +kernel)) _).2 ⟨rfl, rfl⟩

end Pscm
