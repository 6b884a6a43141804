import Verif.ScriptRun
/-!
# C140: a program text prints what Scheme says

`pscm FILE` on a file with the text of a program: one line for each form that has a value, an external representation of the value that the reference semantics of
`RefSem` gives it.  The same for a host program that calls `pscm_eval_string`.
-/
namespace Pscm
open Pscm.Scr Pscm.Scr.Spec
open Pscm.Rd (D Bytes FloIO asc print)
open Pscm.Ref (Same Registered builtinNames initial standard Store evalForm StRel Fixed World VRel)
open Pscm.Ev hiding Name Form evalForm StRel
variable {σ : Type} {P : Prims σ} {FA : FArith} {F : FloIO} {obj : V → Bytes}

/-- What `pscm FILE` does, started on a file with this text: the lines it prints and its exit status. -/
def ScriptOutcome (P : Prims σ) (F : FloIO) (obj : V → Bytes) (x : σ) (text : Bytes) (o : Out (List Bytes × Int)) : Prop :=
  ∃ n s, runScript P F obj n (some text) (start x) = some (o, s)

/-- The answers to a host program that calls `pscm_eval_string` on these texts, after `pscm_init`. -/
def SessionOutcome (P : Prims σ) (F : FloIO) (x : σ) (texts : List Bytes) (o : Out (List ApiRes)) : Prop :=
  ∃ n s, session P F n texts (start x) = some (o, s)

namespace Scr

/-- What a script prints, without a limit of depth. -/
theorem script_run {text : Bytes} {y : V} {ys : List V} (ht : ProgramText F text (y :: ys)) (n : Nat) (s : St σ) :
    runScript P F obj n (some text) s = (scriptLoop P F obj n (y :: ys) >>= fun ls => pure (ls, 0)) s := by
  obtain ⟨ds, r, h1, h2⟩ := program_reads ht (text.length + 1) (Nat.lt_succ_self _)
  simp only [runScript, h1, h2]

theorem script_lub {y : V} {ys : List V} : EM.Lub (fun n => scriptLoop P F obj n (y :: ys) >>= fun ls => pure (ls, (0 : Int))) (loopRun P F obj (y :: ys) >>= fun ls => pure (ls, 0)) :=
  EM.bind_lub (scriptLoop_lub P F obj _) fun _ => EM.lub_const _

theorem line_ext {v : Ref.Val} {w : V} (h : Same v w) (hu : v ≠ .unspecified) :
    ∃ t, lineOf F obj (.value w) = [t] ∧ (Printable .datum v → Ext .datum v t) := by
  refine ⟨valueText F obj w, ?_, fun hp => ?_⟩
  · cases w with
    | none =>
      cases v with
      | unspecified => exact absurd rfl hu
      | pair a d => obtain ⟨_, _, h, _⟩ := h; cases h
      | prim x => obtain ⟨_, h⟩ := h; cases h
      | clo ps rest body ρ => obtain ⟨_, h⟩ := h; cases h
      | undefined => exact absurd h id
      | unassigned => exact absurd h id
      | _ => cases h
    | _ => rfl
  · obtain ⟨d, hd, hE⟩ := (print_ext F h).1 hp
    unfold valueText
    rw [hd]
    exact hE _

/-- The forms of a script that have values. -/
theorem loop_values (hP : HasStd P FA) {X0 : Fixed σ} (hc : X0.catches.length < 100) {fs : List Ref.Form} {vs : List (Option Ref.Val)} {st st' : Store} (hok : ∀ f ∈ fs, f.Ok Registered)
    (hv : Values st fs vs st') : ∀ {W : World} {s : St σ}, StRel X0 Registered W st s →
      ∃ ls s' W', Lines vs ls ∧ StRel X0 Registered W' st' s' ∧ ∀ xs, loopRun P F obj (fs.map Ref.Form.toV ++ xs) s = (loopRun P F obj xs >>= fun ls' => pure (ls ++ ls')) s' := by
  induction hv with
  | nil =>
    intro W s h
    refine ⟨[], s, W, .nil, h, fun xs => ?_⟩
    show loopRun P F obj xs s = _
    rw [bind_apply]
    cases loopRun P F obj xs s with
    | none => rfl
    | some q => obtain ⟨o, s'⟩ := q; cases o <;> rfl
  | @cons st n f v st1 fs vs st2 he _ ih =>
    intro W s h
    have hs := sim_eval (P := P) (B := standard) (Ref.std_implements hP) n (hok f (.head _)) h hc
    rw [he] at hs
    obtain ⟨w, s1, W1, hm, hv, hr⟩ := hs
    obtain ⟨ls, s2, W2, hl, hr2, hx⟩ := ih (fun g hg => hok g (.tail _ hg)) hr
    have step : ∀ xs, loopRun P F obj ((f :: fs).map Ref.Form.toV ++ xs) s = (loopRun P F obj xs >>= fun ls' => pure (lineOf F obj (.value w) ++ ls ++ ls')) s2 := by
      intro xs
      show (evalRun P f.toV >>= fun r => loopRun P F obj (fs.map Ref.Form.toV ++ xs) >>= fun l => pure (lineOf F obj r ++ l)) s = _
      rw [bind_apply, hm]
      show (loopRun P F obj (fs.map Ref.Form.toV ++ xs) >>= fun l => pure (lineOf F obj (.value w) ++ l)) s1 = _
      rw [bind_apply, hx, bind_apply, bind_apply]
      cases loopRun P F obj xs s2 with
      | none => rfl
      | some q =>
        obtain ⟨o, s'⟩ := q
        cases o with
        | ok l => show some (Out.ok _, s') = some (Out.ok _, s'); rw [List.append_assoc]
        | stop e => rfl
    by_cases hu : v = .unspecified
    · subst hu
      have : w = .none := hv
      subst this
      exact ⟨ls, s2, W2, .silent hl, hr2, step⟩
    · obtain ⟨t, ht, hE⟩ := line_ext (F := F) (obj := obj) hv.same hu
      refine ⟨t :: ls, s2, W2, .line hu hE hl, hr2, fun xs => ?_⟩
      rw [step, ht]
      rfl
  | @error st n f st1 fs vs st2 he _ ih =>
    intro W s h
    have hs := sim_eval (P := P) (B := standard) (Ref.std_implements hP) n (hok f (.head _)) h hc
    rw [he] at hs
    obtain ⟨k, a, s1, hm, hL⟩ := hs
    obtain ⟨W1, hr⟩ := hL st1 rfl
    obtain ⟨ls, s2, W2, hl, hr2, hx⟩ := ih (fun g hg => hok g (.tail _ hg)) hr
    refine ⟨ls, s2, W2, .error hl, hr2, fun xs => ?_⟩
    show (evalRun P f.toV >>= fun r => loopRun P F obj (fs.map Ref.Form.toV ++ xs) >>= fun l => pure (lineOf F obj r ++ l)) s = _
    rw [bind_apply, hm]
    show (loopRun P F obj (fs.map Ref.Form.toV ++ xs) >>= fun l => pure ([] ++ l)) s1 = _
    rw [bind_apply, hx, bind_apply]
    cases loopRun P F obj xs s2 with
    | none => rfl
    | some q => obtain ⟨o, s'⟩ := q; cases o <;> rfl

end Scr

/-- **C140** A script whose forms have values or are errors prints an external representation of each value that is not the unspecified one, on lines of their own and in
this order, nothing else on its standard output, and exits with status 0.  A form that is an error keeps the effects it had before the error, and the script goes on. -/
theorem c140_script_partial (hP : HasStd P FA) (x : σ) {text : Bytes} {fs : List Ref.Form} {vs : List (Option Ref.Val)} {st : Store} (ht : ProgramText F text (fs.map Ref.Form.toV))
    (hne : fs ≠ []) (hok : ∀ f ∈ fs, f.Ok Registered) (hv : Values (initial builtinNames) fs vs st) :
    ∃ ls, Lines vs ls ∧ ∀ o, ScriptOutcome P F obj x text o ↔ o = .ok (ls, 0) := by
  obtain ⟨f, fs, rfl⟩ := List.exists_cons_of_ne_nil hne
  obtain ⟨ls, s', W', hl, _, hx⟩ := loop_values (F := F) (obj := obj) hP (X0 := .bare x) (Nat.zero_lt_succ _) hok hv (Ref.start_rel x)
  have hrun : (loopRun P F obj ((f :: fs).map Ref.Form.toV) >>= fun ls => pure (ls, (0 : Int))) (start x) = some (.ok (ls, 0), s') := by
    have := hx []
    rw [List.append_nil] at this
    rw [bind_apply, this]
    simp [bind_apply, loopRun, pure_apply]
  refine ⟨ls, hl, fun o => ⟨?_, ?_⟩⟩
  · rintro ⟨n, s, h⟩
    rw [script_run ht] at h
    have := lub_det (script_lub (P := P) (F := F) (obj := obj)) hrun h
    exact congrArg Prod.fst this
  · rintro rfl
    obtain ⟨n, hn⟩ := (script_lub (P := P) (F := F) (obj := obj)).lub _ _ hrun
    exact ⟨n, s', by rw [script_run ht]; exact hn⟩

/-- **C140** If a form of a script is an error, the lines of the forms before it are printed first, whatever follows it; nothing is printed for the form itself, and the exit
status is 0: with nothing after it, the script ends there. -/
theorem c140_error_partial (hP : HasStd P FA) (x : σ) {text : Bytes} {fs : List Ref.Form} {vs : List (Option Ref.Val)} {st : Store} {f : Ref.Form} {n : Nat} {ys : List V}
    (ht : ProgramText F text (fs.map Ref.Form.toV ++ f.toV :: ys)) (hok : ∀ g ∈ f :: fs, g.Ok Registered) (hv : Values (initial builtinNames) fs vs st)
    {o : Option Store} (he : evalForm standard n st f = .error o) :
    ∃ ls, Lines vs ls ∧ (∀ ls' code, ScriptOutcome P F obj x text (.ok (ls', code)) → (∃ more, ls' = ls ++ more) ∧ code = 0) ∧
      (ys = [] → ∀ o, ScriptOutcome P F obj x text o ↔ o = .ok (ls, 0)) := by
  obtain ⟨ls, s1, W', hl, hr, hx⟩ := loop_values (F := F) (obj := obj) hP (X0 := .bare x) (Nat.zero_lt_succ _) (fun g hg => hok g (.tail _ hg)) hv (Ref.start_rel x)
  have hs := sim_eval (P := P) (B := standard) (Ref.std_implements hP) n (hok f (.head _)) hr (Nat.zero_lt_succ _)
  rw [he] at hs
  obtain ⟨k, a, s2, hm, _⟩ := hs
  have hrun : loopRun P F obj (fs.map Ref.Form.toV ++ f.toV :: ys) (start x) = (loopRun P F obj ys >>= fun ls' => pure (ls ++ ls')) s2 := by
    rw [hx, bind_apply]
    have : loopRun P F obj (f.toV :: ys) s1 = loopRun P F obj ys s2 := by
      show (evalRun P f.toV >>= fun r => loopRun P F obj ys >>= fun l => pure (lineOf F obj r ++ l)) s1 = _
      rw [bind_apply, hm]
      show (loopRun P F obj ys >>= fun l => pure ([] ++ l)) s2 = _
      rw [bind_apply]
      cases loopRun P F obj ys s2 with
      | none => rfl
      | some q => obtain ⟨o, s'⟩ := q; cases o <;> rfl
    rw [this, bind_apply]
  have hcons : ∃ y zs, fs.map Ref.Form.toV ++ f.toV :: ys = y :: zs := by
    cases fs with
    | nil => exact ⟨_, _, rfl⟩
    | cons g gs => exact ⟨_, _, rfl⟩
  obtain ⟨y, zs, hyz⟩ := hcons
  rw [hyz] at ht hrun
  have hle : ∀ n, (scriptLoop P F obj n (y :: zs) >>= fun ls => pure (ls, (0 : Int)) : EM σ (List Bytes × Int)).Le (loopRun P F obj (y :: zs) >>= fun ls => pure (ls, 0)) :=
    fun n => EM.bind_le (scriptLoop_le_run P F obj n _) fun _ => EM.le_refl _
  refine ⟨ls, hl, ?_, ?_⟩
  · rintro ls' code ⟨n, s, h⟩
    rw [script_run ht] at h
    have := (hle n).le _ _ h
    rw [bind_apply, hrun, bind_apply] at this
    cases hq : loopRun P F obj ys s2 with
    | none => rw [hq] at this; cases this
    | some q =>
      obtain ⟨o, s'⟩ := q
      rw [hq] at this
      cases o with
      | stop e => cases this
      | ok l => cases this; exact ⟨⟨l, rfl⟩, rfl⟩
  · rintro rfl
    have hrun' : (loopRun P F obj (y :: zs) >>= fun ls => pure (ls, (0 : Int))) (start x) = some (.ok (ls, 0), s2) := by
      rw [bind_apply, hrun]
      simp [bind_apply, loopRun, pure_apply]
    intro o
    constructor
    · rintro ⟨n, s, h⟩
      rw [script_run ht] at h
      exact congrArg Prod.fst (lub_det (script_lub (P := P) (F := F) (obj := obj)) hrun' h)
    · rintro rfl
      obtain ⟨n, hn⟩ := (script_lub (P := P) (F := F) (obj := obj)).lub _ _ hrun'
      exact ⟨n, s2, by rw [script_run ht]; exact hn⟩

/-- **C140** fails for the empty program: a file with nothing but blanks and comments is reported as one that cannot be read. -/
theorem c140_empty_fails (x : σ) {text : Bytes} (ht : ProgramText F text []) (o : Out (List Bytes × Int)) : ScriptOutcome P F obj x text o ↔ o = .ok ([], 1) := by
  obtain ⟨ds, r, h1, h2⟩ := program_reads ht (text.length + 1) (Nat.lt_succ_self _)
  have : ∀ n, runScript P F obj n (some text) (start x) = some (.ok ([], 1), start x) := by
    intro n
    simp only [runScript, h1, h2]
    rfl
  constructor
  · rintro ⟨n, s, h⟩
    rw [this] at h
    cases h
    rfl
  · rintro rfl
    exact ⟨0, _, this 0⟩

/-- The texts are those of the forms. -/
inductive FormTexts (F : FloIO) : List Bytes → List Ref.Form → Prop
  | nil : FormTexts F [] []
  | cons {t ts f fs} : FormText F t f.toV → FormTexts F ts fs → FormTexts F (t :: ts) (f :: fs)

/-- The values given back are these, in this order; for an error, the null pointer. -/
inductive Answers : List (Option Ref.Val) → List ApiRes → Prop
  | nil : Answers [] []
  | cons {v vs w rs} : Same v w → Answers vs rs → Answers (some v :: vs) (.value w :: rs)
  | error {vs k a rs} : Answers vs rs → Answers (none :: vs) (.failed k a :: rs)

namespace Scr

theorem session_values (hP : HasStd P FA) {X0 : Fixed σ} (hc : X0.catches.length < 98) {fs : List Ref.Form} {vs : List (Option Ref.Val)} {st st' : Store} (hok : ∀ f ∈ fs, f.Ok Registered)
    (hv : Values st fs vs st') : ∀ {texts : List Bytes} {W : World} {s : St σ}, FormTexts F texts fs → StRel X0 Registered W st s →
      ∃ rs s' W', Answers vs rs ∧ StRel X0 Registered W' st' s' ∧ ∀ ts, sessionRun P F (texts ++ ts) s = (sessionRun P F ts >>= fun rs' => pure (rs ++ rs')) s' := by
  induction hv with
  | nil =>
    intro texts W s ht h
    cases ht
    refine ⟨[], s, W, .nil, h, fun xs => ?_⟩
    show sessionRun P F xs s = _
    rw [bind_apply]
    cases sessionRun P F xs s with
    | none => rfl
    | some q => obtain ⟨o, s'⟩ := q; cases o <;> rfl
  | @cons st n f v st1 fs vs st2 he _ ih =>
    intro texts W s ht h
    cases ht with
    | @cons t texts _ _ ht hts =>
    have hs := sim_text (P := P) (B := standard) (fun X => Ref.std_implements hP) n (hok f (.head _)) h hc
    rw [he] at hs
    obtain ⟨w, s1, W1, hm, hv, hr⟩ := hs
    obtain ⟨rs, s2, W2, hl, hr2, hx⟩ := ih (fun g hg => hok g (.tail _ hg)) hts hr
    refine ⟨.value w :: rs, s2, W2, .cons hv.same hl, hr2, fun ts => ?_⟩
    show (evalTextRun P F t >>= fun r => sessionRun P F (texts ++ ts) >>= fun l => pure (r :: l)) s = _
    have h1 : evalTextRun P F t s = textRun P (.datum f.toV) s := by
      unfold evalTextRun
      rw [form_reads ht]
    rw [bind_apply, h1, hm]
    show (sessionRun P F (texts ++ ts) >>= fun l => pure (.value w :: l)) s1 = _
    rw [bind_apply, hx, bind_apply, bind_apply]
    cases sessionRun P F ts s2 with
    | none => rfl
    | some q => obtain ⟨o, s'⟩ := q; cases o <;> rfl
  | @error st n f st1 fs vs st2 he _ ih =>
    intro texts W s ht h
    cases ht with
    | @cons t texts _ _ ht hts =>
    have hs := sim_text (P := P) (B := standard) (fun X => Ref.std_implements hP) n (hok f (.head _)) h hc
    rw [he] at hs
    obtain ⟨k, a, s1, hm, hL⟩ := hs
    obtain ⟨W1, hr⟩ := hL st1 rfl
    obtain ⟨rs, s2, W2, hl, hr2, hx⟩ := ih (fun g hg => hok g (.tail _ hg)) hts hr
    refine ⟨.failed k a :: rs, s2, W2, .error hl, hr2, fun ts => ?_⟩
    show (evalTextRun P F t >>= fun r => sessionRun P F (texts ++ ts) >>= fun l => pure (r :: l)) s = _
    have h1 : evalTextRun P F t s = textRun P (.datum f.toV) s := by
      unfold evalTextRun
      rw [form_reads ht]
    rw [bind_apply, h1, hm]
    show (sessionRun P F (texts ++ ts) >>= fun l => pure (.failed k a :: l)) s1 = _
    rw [bind_apply, hx, bind_apply, bind_apply]
    cases sessionRun P F ts s2 with
    | none => rfl
    | some q => obtain ⟨o, s'⟩ := q; cases o <;> rfl

end Scr

/-- **C140** A host program that calls `pscm_eval_string` on the texts of forms, one after the other, gets back the value of each, and the null
pointer for a form that is an error; the effects of such a form before the error are there in the next ones. -/
theorem c140_session_partial (hP : HasStd P FA) (x : σ) {texts : List Bytes} {fs : List Ref.Form} {vs : List (Option Ref.Val)} {st : Store} (ht : FormTexts F texts fs)
    (hok : ∀ f ∈ fs, f.Ok Registered) (hv : Values (initial builtinNames) fs vs st) :
    ∃ rs, Answers vs rs ∧ ∀ o, SessionOutcome P F x texts o ↔ o = .ok rs := by
  obtain ⟨rs, s', W', hl, _, hx⟩ := session_values (F := F) hP (X0 := .bare x) (Nat.zero_lt_succ _) hok hv ht (Ref.start_rel x)
  have hrun : sessionRun P F texts (start x) = some (.ok rs, s') := by
    have := hx []
    rw [List.append_nil] at this
    rw [this]
    simp [bind_apply, sessionRun, pure_apply]
  refine ⟨rs, hl, fun o => ⟨?_, ?_⟩⟩
  · rintro ⟨n, s, h⟩
    exact congrArg Prod.fst (lub_det (session_lub P F texts) hrun h)
  · rintro rfl
    obtain ⟨n, hn⟩ := (session_lub P F texts).lub _ _ hrun
    exact ⟨n, s', hn⟩

/-- **C140** If a form is an error, the call gives back the null pointer and the error is recorded. -/
theorem c140_session_error_partial (hP : HasStd P FA) (x : σ) {texts : List Bytes} {t : Bytes} {fs : List Ref.Form} {vs : List (Option Ref.Val)} {st : Store} {f : Ref.Form} {n : Nat}
    (ht : FormTexts F texts fs) (htf : FormText F t f.toV) (hok : ∀ g ∈ f :: fs, g.Ok Registered) (hv : Values (initial builtinNames) fs vs st)
    {o : Option Store} (he : evalForm standard n st f = .error o) :
    ∃ rs k a, Answers vs rs ∧ ∀ o, SessionOutcome P F x (texts ++ [t]) o ↔ o = .ok (rs ++ [.failed k a]) := by
  obtain ⟨rs, s1, W', hl, hr, hx⟩ := session_values (F := F) hP (X0 := .bare x) (Nat.zero_lt_succ _) (fun g hg => hok g (.tail _ hg)) hv ht (Ref.start_rel x)
  have hs := sim_text (P := P) (B := standard) (fun X => Ref.std_implements hP) n (hok f (.head _)) hr (Nat.zero_lt_succ _)
  rw [he] at hs
  obtain ⟨k, a, s2, hm, _⟩ := hs
  have hrun : sessionRun P F (texts ++ [t]) (start x) = some (.ok (rs ++ [.failed k a]), s2) := by
    rw [hx, bind_apply]
    have h1 : evalTextRun P F t s1 = textRun P (.datum f.toV) s1 := by
      unfold evalTextRun
      rw [form_reads htf]
    simp [sessionRun, bind_apply, h1, hm, pure_apply]
  refine ⟨rs, k, a, hl, fun o => ⟨?_, ?_⟩⟩
  · rintro ⟨n, s, h⟩
    exact congrArg Prod.fst (lub_det (session_lub P F _) hrun h)
  · rintro rfl
    obtain ⟨n, hn⟩ := (session_lub P F _).lub _ _ hrun
    exact ⟨n, s2, hn⟩

/-- **C140** For a text without expressions, `pscm_eval_string` answers the null pointer, and an error is recorded. -/
theorem c140_session_empty (P : Prims σ) (x : σ) {t : Bytes} (ht : ProgramText F t []) :
    ∃ k a, ∀ o, SessionOutcome P F x [t] o ↔ o = .ok [.failed k a] := by
  have hr : readText F t = some (.error "Parse error") := by
    cases ht with
    | done hb h0 =>
      obtain ⟨r, hr⟩ := (c66_eof (F := F) h0).2 hb
      simp only [readText, Rd.parse, hr, Rd.need]
  have key : ∃ k a, ∀ n, ∃ s, session P F n [t] (start x) = some (.ok [.failed k a], s) := by
    refine ⟨"error", .pair (.str "Parse error") .nil, fun n => ?_⟩
    have h : session P F n [t] (start x) = (pscmEvalString P n (.error "Parse error") >>= fun r => pure [r]) (start x) := by
      show (evalText P F n t >>= fun r => pure [r]) (start x) = _
      unfold evalText
      rw [hr]
    rw [h]
    exact ⟨_, rfl⟩
  obtain ⟨k, a, key⟩ := key
  refine ⟨k, a, fun o => ⟨?_, ?_⟩⟩
  · rintro ⟨n, s, h⟩
    obtain ⟨s', h'⟩ := key n
    rw [h'] at h
    cases h
    rfl
  · rintro rfl
    obtain ⟨s, h⟩ := key 0
    exact ⟨0, s, h⟩

/-- **C140** Every program with readable names and strings has a text: its forms, one on each line. -/
theorem c140_text {fs : List Ref.Form} {ds : List D} (h : HasTexts (fs.map Ref.Form.toV) ds) : ProgramText F (listing F ds) (fs.map Ref.Form.toV) :=
  program_text_aux (w := []) h .nil (by simp)

/-- **C140** The line printed for a value made of readable data is read as this value again. -/
theorem c140_readback {w : V} {d : D} (h : HasText w d) : ∃ t, lineOf F obj (.value w) = [t] ∧ readText F t = some (.datum w) := by
  have h1 := h.tree
  refine ⟨print F true d, ?_, ?_⟩
  · have : valueText F obj w = print F true d := by unfold valueText; rw [h1]
    rw [← this]
    cases w with
    | none => cases h1
    | _ => rfl
  · unfold readText
    rw [c67_exact_partial h.readable (plain_toD h1)]
    simp only [ofD_toD h1, Option.map_some]

/-! ## Cases -/

namespace Scr.Demo
open Pscm.Rd.Spec

instance (c : UInt8) : Decidable (symChar c) := inferInstanceAs (Decidable (((65 ≤ c ∧ c ≤ 90) ∨ (97 ≤ c ∧ c ≤ 122)) ∨ (48 ≤ c ∧ c ≤ 57) ∨ c ∈ asc "!$%&*+-./:<=>?@^_~|"))
instance (c : UInt8) : Decidable (letter c) := inferInstanceAs (Decidable ((65 ≤ c ∧ c ≤ 90) ∨ (97 ≤ c ∧ c ≤ 122)))
instance (c : UInt8) : Decidable (StrByte c) := inferInstanceAs (Decidable ((32 ≤ c ∧ c < 127) ∨ c ∈ [9, 10, 13]))

/-- Names that begin with a letter or are a single sign. -/
def simpleName (s : Bytes) : Bool := (s != []) && s.all (fun c => decide (symChar c)) && (s ∈ [[42], [43], [45], [61]] || decide (∃ c ∈ s.head?, letter c))

theorem simpleName_ok {s : Bytes} (h : simpleName s = true) : SymOk s := by
  simp only [simpleName, Bool.and_eq_true, Bool.or_eq_true, decide_eq_true_eq, List.all_eq_true, bne_iff_ne] at h
  obtain ⟨⟨h0, h1⟩, h2⟩ := h
  rcases h2 with h2 | ⟨c, hc, hl⟩
  · simp only [List.mem_cons, List.not_mem_nil, or_false] at h2
    rcases h2 with rfl | rfl | rfl | rfl <;> exact ⟨h0, h1, by simp, by simp [digit], by simp, by simp, by simp⟩
  · cases s with
    | nil => exact absurd rfl h0
    | cons c' t =>
      cases hc
      have key : ∀ c : UInt8, letter c → c ≠ 58 ∧ ¬ digit c ∧ c ∉ [43, 45] ∧ c ≠ 46 := by unfold digit; decide +kernel
      obtain ⟨k1, k2, k3, k4⟩ := key _ hl
      refine ⟨h0, h1, ?_, ?_, ?_, ?_, ?_⟩
      · intro t h; injection h with h; exact k1 h
      · intro c t h hd; injection h with h; rw [h] at k2; exact absurd hd k2
      · intro c d t h hm; injection h with h; rw [h] at k3; exact absurd hm k3
      · intro h; injection h with h; exact k4 h
      · intro t h; injection h with h; exact k4 h

/-- A check for readable data. -/
def readable : Place → D → Bool
  | .datum, .nil => true
  | .datum, .bool _ => true
  | .datum, .num n => decide (-(2:Int)^63 < n) && decide (n < (2:Int)^63)
  | .datum, .str s => s.all fun c => decide (StrByte c)
  | .datum, .sym s => simpleName s
  | .datum, .pair a d => readable .datum a && readable .tail d && (a != .sym (asc "quote") && a != .sym (asc "quasiquote") && a != .sym (asc "unquote") && a != .sym (asc "unquote-splicing"))
  | .tail, .nil => true
  | .tail, .pair a d => readable .datum a && readable .tail d
  | _, _ => false

theorem readable_ok {d : D} : ∀ {p : Place}, readable p d = true → Readable p d := by
  induction d with
  | nil => intro p h; cases p <;> first | trivial | cases h
  | bool b => intro p h; cases p <;> first | trivial | cases h
  | num n =>
    intro p h
    cases p with
    | datum =>
      simp only [readable, Bool.and_eq_true, decide_eq_true_eq] at h
      exact h
    | _ => cases h
  | str s =>
    intro p h
    cases p with
    | datum =>
      simp only [readable, List.all_eq_true, decide_eq_true_eq] at h
      exact h
    | _ => cases h
  | sym s =>
    intro p h
    cases p with
    | datum => exact simpleName_ok h
    | _ => cases h
  | pair a d iha ihd =>
    intro p h
    cases p with
    | datum =>
      simp only [readable, Bool.and_eq_true, bne_iff_ne] at h
      obtain ⟨⟨h1, h2⟩, ⟨⟨h3, h4⟩, h5⟩, h6⟩ := h
      refine ⟨iha h1, ihd h2, ?_⟩
      rintro (h | h | h | h) <;> contradiction
    | tail =>
      simp only [readable, Bool.and_eq_true] at h
      exact ⟨iha h.1, ihd h.2⟩
    | elems => cases h
  | _ => intro p h; cases p <;> cases h

theorem hasText {v : V} {d : D} (h : toD v = some d) (hr : readable .datum d = true) (hd : ∀ s, d ≠ .sym s) : HasText v d := ⟨h, readable_ok hr, fun _ => hd _⟩

theorem token {v : V} {d : D} (h : toD v = some d) (hr : readable .datum d = true) (hd : ∀ t, d ≠ .sym (46 :: t)) {t : Bytes} (ht : print F true d = t) : Token F t d :=
  ht ▸ HasText.token ⟨h, readable_ok hr, hd⟩

/-- A text of the factorial program. -/
def text : Bytes := asc "; factorial\n(define (fact n) (if (= n 0) 1 (* n (fact (- n 1)))))\n( fact ; call it\n 5)"

/-- The definition, as the reader builds it. -/
def defTree : D :=
  (toD RefDemo.factDef.toV).getD .nil

theorem text_ok : ProgramText F text ([RefDemo.factDef, RefDemo.factCall 5].map Ref.Form.toV) := by
  have e : text = (59 :: (asc " factorial" ++ 10 :: [])) ++ (asc "(define (fact n) (if (= n 0) 1 (* n (fact (- n 1)))))" ++
    ([10] ++ ((40 :: ([32] ++ ((asc "fact" ++ ((32 :: (59 :: (asc " call it" ++ 10 :: [32]))) ++ (asc "5" ++ ([] ++ [])))) ++ [41]))) ++ []))) := by decide +kernel
  rw [e]
  refine .form (d := defTree) (.comment (by decide +kernel) .nil) (.atom (token (v := RefDemo.factDef.toV) (by decide +kernel) (by decide +kernel) ?_ ?_)) ?_
    (by decide +kernel) (.inr ⟨10, _, rfl, by decide⟩)
    (.form (d := .pair (.sym (asc "fact")) (.pair (.num 5) .nil)) (.space (by decide) .nil)
      (.list (.space (by decide) .nil) (.listNext (.atom (token (v := .sym "fact") (by decide +kernel) (by decide +kernel) ?_ ?_))
        (.space (by decide) (.comment (by decide +kernel) (.space (by decide) .nil)))
        (.listNext (.atom (token (v := .num 5) (by decide +kernel) (by decide +kernel) ?_ ?_)) .nil .listEnd (.inr (.inl rfl))) (.inl (by simp))))
      ?_ (by decide +kernel) (.inl rfl) (.done ⟨[], [], rfl, .nil, .inl rfl⟩ (by simp)))
  · have : ∀ d, d = defTree → ∀ t, d ≠ .sym (46 :: t) := by
      intro d h t h'
      rw [h'] at h
      have hp : (match defTree with | .pair _ _ => true | _ => false) = true := by decide +kernel
      rw [← h] at hp
      cases hp
    exact this _ rfl
  · rfl
  · exact fun u h => absurd (congrArg List.head? h) (show ¬ List.head? _ = some (44 : UInt8) by decide +kernel)
  · exact fun t h => absurd (congrArg (fun d => match d with | .sym s => s.head? | _ => none) h) (show ¬ List.head? (asc "fact") = some (46 : UInt8) by decide +kernel)
  · rfl
  · simp
  · rfl
  · exact fun u h => absurd (congrArg List.head? h) (show ¬ List.head? _ = some (44 : UInt8) by decide +kernel)

/-- `(fact 5)` is 120. -/
theorem values_ok : ∃ st, Values (initial builtinNames) [RefDemo.factDef, RefDemo.factCall 5] [some .unspecified, some (.num 120)] st :=
  ⟨_, .cons (n := 0) rfl (.cons (n := 60) rfl .nil)⟩

/-- `(fact)`, an error. -/
def badCall : Ref.Form := .exp (.app (.var "fact") [])

theorem bad_error {st : Store} (h : Values (initial builtinNames) [RefDemo.factDef] [some .unspecified] st) : ∃ o, evalForm standard 20 st badCall = .error o := by
  cases h with
  | cons h h' =>
    cases h'
    cases h
    exact ⟨_, rfl⟩

/-- The three forms on one line each. -/
def badTrees : List D := [defTree, .pair (.sym (asc "fact")) .nil, .pair (.sym (asc "fact")) (.pair (.num 5) .nil)]

theorem bad_texts : HasTexts ([RefDemo.factDef, badCall, RefDemo.factCall 5].map Ref.Form.toV) badTrees :=
  .cons (hasText (by decide +kernel) (by decide +kernel) (by
    intro s h
    have hp : (match defTree with | .pair _ _ => true | _ => false) = true := by decide +kernel
    rw [h] at hp
    cases hp)) (.cons (hasText (by decide +kernel) (by decide +kernel) (by simp)) (.cons (hasText (by decide +kernel) (by decide +kernel) (by simp)) .nil))

/-- `(define y 1)`, `(begin (set! y 2) (car y))`, `y`. -/
def goesOn : List Ref.Form :=
  [.define "y" (.const (.num 1)), .exp (.begin [.set "y" (.const (.num 2)), .app (.var "car") [.var "y"]]), .exp (.var "y")]

theorem goesOn_values : ∃ st, Values (initial builtinNames) goesOn [some .unspecified, none, some (.num 2)] st :=
  ⟨_, .cons (n := 10) rfl (.error (n := 10) rfl (.cons (n := 10) rfl .nil))⟩

theorem goesOn_texts : HasTexts (goesOn.map Ref.Form.toV) (goesOn.map fun f => (toD f.toV).getD .nil) := by
  refine .cons (hasText ?_ ?_ ?_) (.cons (hasText ?_ ?_ ?_) (.cons ⟨?_, readable_ok ?_, ?_⟩ .nil))
  all_goals first | decide +kernel | (intro s h; cases h)

end Scr.Demo

/-- The second form is an error, after an assignment: the script prints the numeral of 2, and nothing else. -/
example (hP : HasStd P FA) (x : σ) : ∃ t, Spec.IsNumeral 10 2 t ∧
    ∀ o, ScriptOutcome P F obj x (listing F (Scr.Demo.goesOn.map fun f => (toD f.toV).getD .nil)) o ↔ o = .ok ([t], 0) := by
  obtain ⟨st, hv⟩ := Scr.Demo.goesOn_values
  obtain ⟨ls, hl, h⟩ := c140_script_partial (obj := obj) hP x (c140_text (F := F) Scr.Demo.goesOn_texts) (by simp [Scr.Demo.goesOn])
    (by simp [Scr.Demo.goesOn, Ref.Form.Ok, Ref.Exp.Ok, Ref.Exp.Oks]; decide) hv
  cases hl with
  | line hu => exact absurd rfl hu
  | silent hl =>
    cases hl with
    | error hl =>
      cases hl with
      | line _ hE hl =>
        cases hl
        cases hE trivial with
        | num ht => exact ⟨_, ht, h⟩

/-- The factorial program prints the numeral of 120 on one line, and nothing else. -/
example (hP : HasStd P FA) (x : σ) : ∃ t, Spec.IsNumeral 10 120 t ∧ ∀ o, ScriptOutcome P F obj x Scr.Demo.text o ↔ o = .ok ([t], 0) := by
  obtain ⟨st, hv⟩ := Scr.Demo.values_ok
  obtain ⟨ls, hl, h⟩ := c140_script_partial (obj := obj) hP x (Scr.Demo.text_ok (F := F)) (by simp) (RefDemo.fact_ok 5) hv
  cases hl with
  | line hu => exact absurd rfl hu
  | silent hl =>
    cases hl with
    | line _ hE hl =>
      cases hl
      have := hE trivial
      cases this with
      | num ht => exact ⟨_, ht, h⟩

/-- After an error the script goes on: the two lines `(fact)` and `(fact 5)` after the definition. -/
example (hP : HasStd P FA) (x : σ) (ls' : List Bytes) (code : Int) :
    ScriptOutcome P F obj x (listing F Scr.Demo.badTrees) (.ok (ls', code)) → code = 0 := by
  have ht := c140_text (F := F) Scr.Demo.bad_texts
  have hv : Values (initial builtinNames) [RefDemo.factDef] [some .unspecified] _ := .cons (n := 0) rfl .nil
  obtain ⟨ls, _, h, _⟩ := c140_error_partial (obj := obj) hP x (fs := [RefDemo.factDef]) (f := Scr.Demo.badCall) ht
    (by
      intro g hg
      rcases List.mem_cons.1 hg with rfl | hg
      · simp [Scr.Demo.badCall, Ref.Form.Ok, Ref.Exp.Ok, Ref.Exp.Oks]; decide
      · exact RefDemo.fact_ok 5 g (by simp only [List.mem_cons, List.not_mem_nil, or_false] at hg ⊢; exact .inl hg)) hv (Scr.Demo.bad_error hv).choose_spec
  exact fun ho => (h ls' code ho).2

/-- A session: the definition of `fact` and the call `(fact)`. -/
example (hP : HasStd P FA) (x : σ) : ∃ k a, SessionOutcome P F x (Scr.Demo.badTrees.take 2 |>.map (print F true)) (.ok [.value .none, .failed k a]) := by
  have ft : ∀ {v : V} {d : D}, HasText v d → FormText F (print F true d) v := fun {v d} h =>
    ⟨[], _, [], d, by simp, .nil, .atom h.token, h.notComma, ofD_toD h.tree, .nil⟩
  have hv : Values (initial builtinNames) [RefDemo.factDef] [some .unspecified] _ := .cons (n := 0) rfl .nil
  have hb := Scr.Demo.bad_texts
  cases hb with
  | cons h1 hb =>
    cases hb with
    | cons h2 _ =>
      obtain ⟨rs, k, a, hr, h⟩ := c140_session_error_partial hP x (.cons (ft h1) .nil) (ft h2)
        (by
          intro g hg
          rcases List.mem_cons.1 hg with rfl | hg
          · simp [Scr.Demo.badCall, Ref.Form.Ok, Ref.Exp.Ok, Ref.Exp.Oks]; decide
          · exact RefDemo.fact_ok 5 g (by simp only [List.mem_cons, List.not_mem_nil, or_false] at hg ⊢; exact .inl hg)) hv (Scr.Demo.bad_error hv).choose_spec
      cases hr with
      | cons hs hr =>
        cases hr
        cases hs
        exact ⟨k, a, (h _).2 rfl⟩

/-- `("a" 7)` is read back. -/
example : HasText (listOf [.str "a", .num 7]) (.pair (.str (asc "a")) (.pair (.num 7) .nil)) := Scr.Demo.hasText (by decide +kernel) (by decide +kernel) (by simp)

/-- A text with a blank only. -/
example (P : Prims σ) (x : σ) : ∃ k a, SessionOutcome P F x [[32]] (.ok [.failed k a]) := by
  obtain ⟨k, a, h⟩ := c140_session_empty (F := F) P x (.done ⟨[32], [], rfl, .space (by decide) .nil, .inl rfl⟩ (by decide))
  exact ⟨k, a, (h _).2 rfl⟩

/-- A file with a comment only. -/
example : ProgramText F (asc "; nothing\n ") [] := by
  have e : asc "; nothing\n " = 59 :: (asc " nothing" ++ 10 :: [32]) := by decide +kernel
  rw [e]
  exact .done ⟨_, [], (List.append_nil _).symm, .comment (by decide +kernel) (.space (by decide) .nil), .inl rfl⟩ (by decide +kernel)

end Pscm
