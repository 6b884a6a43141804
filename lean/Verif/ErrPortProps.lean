import Verif.ErrPortLemmas
import Verif.ThrowProps
/-!
# C144: the report of an uncaught throw reaches the error port
-/
namespace Pscm
open Ports
open Rd (Bytes asc)
open Port (In Out)
variable {σ : Type}

theorem message_line {k : Thr.Key} {a : Thr.Args} (h : (Thr.line k a).length ≤ 1023) : Thr.message none k a = some (Thr.line k a) := by
  have := Thr.message_short k a h
  unfold Thr.uncaught at this
  cases e : Thr.message none k a with
  | none => rw [e] at this; cases this
  | some m => rw [e] at this; cases this; rfl

/-- **C144 (files)** When a file port is the current error port, an uncaught throw adds its report to the file, after everything the program wrote to it, and all of it is
in the file when the process ends.  Partial: the line has at most 1023 bytes (C113); the program printed no NUL; if an evaluation is going on, the standard error is open. -/
theorem c144_file_partial (W : World σ) (s : PS σ) (hs : AfterProgram W s) (name : Bytes) (hw : W.writable (cstr name) = true)
    (hfree : NotBeingWritten s (cstr name)) :
    ∃ i t, step W s (.openOut name) = (.ok (.port i), t) ∧
      ∀ (ops : List Op), (∀ n, .openOut n ∈ ops → cstr n ≠ cstr name) → (∀ m d, .print m d (.port i) ∈ ops → (0 : UInt8) ∉ Rd.print W.flo m d) →
        .closeOut (.port i) ∉ ops → ∀ (as : List (Option Ans)) (s' : PS σ), runs W t ops = some (as, s') → current s' .error = i →
        ∀ (k : Thr.Key) (a : Thr.Args) (stack : Option Bytes), (Thr.line k a).length ≤ 1023 → (stack ≠ none → StdErr s') →
          ∃ s'', uncaughtThrow W s' k a stack = (.ok (), s'') ∧
            s''.files (cstr name) = some (sentTo W.flo i ops ++ reportText (Thr.line k a) stack) := by
  obtain ⟨ar, p, f, w⟩ := open_writing hs.tidy hs.sane hfree
  refine ⟨s.ports.length, afterOpen s name, open_step hw, ?_⟩
  intro ops hn h0 hc as s' hrun hcur k a stack hl hstd
  have hi : s.ports.length ≠ 0 := by have := hs.sane.three; omega
  have hm := message_line hl
  have hm0 := message_noNul hm
  obtain ⟨f', w'⟩ := writing_runs (W := W) ops _ s' [] as _ _ _ hn h0 hc hrun ar w
  have hcur' : s'.curErr = s.ports.length := hcur
  have hfit : Fit s' s'.curErr (reportText (Thr.line k a) stack).length :=
    ⟨_, by rw [hcur']; exact w'.port, w'.opened, w'.dir, .inl ⟨w'.kind, _, w'.file, _, w'.stream, w'.live⟩⟩
  obtain ⟨s'', as', h1, h2⟩ := uncaught_runs (W := W) hm stack hfit hstd
  refine ⟨s'', h1, ?_⟩
  rw [hcur'] at h2
  have hmore : ∀ w d, Op.print w d (.port s.ports.length) ∉ ([.flush (.port s.ports.length)] : List Op) := by intro w d; simp
  have hall := runs_trans _ _ _ _ _ _ _ hrun h2
  obtain ⟨i, t, e, -, key⟩ := c103_file_output_partial W s hs name hw hfree
  rw [open_step hw] at e
  cases e
  obtain ⟨as3, s3, h3, e3⟩ := runs_append _ _ _ _ _ h2
  have hall3 := runs_trans _ _ _ _ _ _ _ hrun h3
  have := (key (ops ++ reporting s.ports.length (Thr.line k a) stack) ?_ ?_ _ _ hall3).2.2
  · rw [e3, this]
    have e4 := sent_reporting W.flo (i := s.ports.length) hm0 (stack := stack) hi []
    rw [List.append_nil] at e4
    rw [sentTo_append _ _ _ _ hc, e4]
    simp [sentTo]
  · intro n hmem
    rw [List.mem_append] at hmem
    rcases hmem with hmem | hmem
    · exact hn n hmem
    · cases stack <;> simp [reporting] at hmem
  · intro w d hmem
    rw [List.mem_append] at hmem
    rcases hmem with hmem | hmem
    · exact h0 w d hmem
    · exact reporting_noNul hm0 hi (more := []) (by simp) (by simpa using hmem)

/-- **C144 (string ports)** The same with a string port: what `get-output-string` gives is what the program wrote followed by the report. -/
theorem c144_string_partial (W : World σ) (s : PS σ) (hs : AfterProgram W s) (i : Nat) (t : PS σ) (hopen : step W s .openOutStr = (.ok (.port i), t))
    (ops : List Op) (h0 : ∀ m d, .print m d (.port i) ∈ ops → (0 : UInt8) ∉ Rd.print W.flo m d) (hc : .closeOut (.port i) ∉ ops)
    (as : List (Option Ans)) (s' : PS σ) (hrun : runs W t ops = some (as, s')) (hcur : current s' .error = i)
    (k : Thr.Key) (a : Thr.Args) (stack : Option Bytes) (hl : (Thr.line k a).length ≤ 1023) (hstd : stack ≠ none → StdErr s')
    (hb : (sentTo W.flo i ops).length + (reportText (Thr.line k a) stack).length + 1 < 2 ^ 30) :
    ∃ s'', report W s' none k a stack = (.ok (), s'') ∧
      step W s'' (.getOutput (.port i)) = (.ok (.str (sentTo W.flo i ops ++ reportText (Thr.line k a) stack)), s'') := by
  have hopen0 := hopen
  simp only [step, openOutputString, newPort] at hopen
  cases hopen
  have hi : s.ports.length ≠ 0 := by have := hs.sane.three; omega
  have hm := message_line hl
  have hm0 := message_noNul hm
  obtain ⟨q, hq⟩ := collects_runs (W := W) (i := s.ports.length) ops _ s' [] as { blank .strOut false with out := Port.openOut } h0
    (by simp only [List.length_nil]; omega) hc hrun ⟨by simp, rfl, rfl, rfl, rfl, openOut_holds⟩
  rw [List.nil_append] at hq
  have hcur' : s'.curErr = s.ports.length := hcur
  have hfit : Fit s' s'.curErr (reportText (Thr.line k a) stack).length :=
    ⟨_, by rw [hcur']; exact hq.port, hq.opened, hq.dir, .inr ⟨hq.kind, _, hq.data, hb⟩⟩
  obtain ⟨s'', as', h1, h2, -, -⟩ := report_runs (W := W) hm stack hfit hstd
  refine ⟨s'', h1, ?_⟩
  rw [hcur'] at h2
  have hall := runs_trans _ _ _ _ _ _ _ hrun h2
  have e4 := sent_reporting W.flo (i := s.ports.length) hm0 (stack := stack) hi []
  rw [List.append_nil] at e4
  have e5 : sentTo W.flo s.ports.length (ops ++ reporting s.ports.length (Thr.line k a) stack) = sentTo W.flo s.ports.length ops ++ reportText (Thr.line k a) stack := by
    rw [sentTo_append _ _ _ _ hc, e4]; simp [sentTo]
  have := c105_string_output_partial W s s.ports.length _ hopen0 (ops ++ reporting s.ports.length (Thr.line k a) stack) ?_ ?_ _ _ hall
  · rw [this, e5]
  · intro w d hmem
    rw [List.mem_append] at hmem
    rcases hmem with hmem | hmem
    · exact h0 w d hmem
    · exact reporting_noNul hm0 hi (more := []) (by simp) (by simpa using hmem)
  · rw [e5, List.length_append]; omega

/-- **C144 (no error port)** If the current error port is closed or a soft port, the report goes to the standard error, as if displayed there. -/
theorem c144_fallback (W : World σ) (s : PS σ) (p : PortRec) (hp : s.ports[current s .error]? = some p) (hf : p.closed = true ∧ p.file = none ∨ p.kind = .soft) (hstd : StdErr s)
    (k : Thr.Key) (a : Thr.Args) (hl : (Thr.line k a).length ≤ 1023) :
    ∃ s', report W s none k a none = (.ok (), s') ∧ step W s (.print false (.str (Thr.line k a)) (.port 0)) = (.ok .unspecified, s') := by
  have hm := message_line hl
  have gp := getPort_eq hp
  obtain ⟨s', e1, e2, e3, -⟩ := err_std (W := W) (t := Thr.line k a) hstd
  refine ⟨s', ?_, e2⟩
  have gp' : getPort s' (current s .error) = .ok p := by simp only [getPort] at gp ⊢; rw [e3]; exact gp
  simp only [report, hm]
  rcases hf with ⟨hc, hn⟩ | hk
  · simp only [putErr, gp, hc, if_true, e1, thenDo, flushErr, gp', hn]
    split <;> rfl
  · have hk' : ¬ p.kind = .fileOut := by rw [hk]; simp
    have : putErr W s (current s .error) (Thr.line k a) = (.ok (), s') := by
      simp only [putErr, gp, hk]
      split <;> exact e1
    simp only [this, thenDo, flushErr, gp', if_neg hk']

/-- **C144 (violation)** Once the program has closed the port of the standard error, every uncaught throw is undefined behaviour: the report is written to the closed C
stream. -/
theorem c144_closed_fails (W : World σ) (files : Bytes → Option Bytes) (stdin : Bytes) (u : σ) :
    ∃ s, step W (initial files stdin u) (.closeOut (.port 0)) = (.ok .unspecified, s) ∧
      ∀ (prog : Option Bytes) (k : Thr.Key) (a : Thr.Args) (stack : Option Bytes), (report W s prog k a stack).1 = .ub := by
  refine ⟨_, rfl, ?_⟩
  intro prog k a stack
  unfold report
  cases Thr.message prog k a with
  | none => rfl
  | some m => cases stack <;> rfl

/-- **C144 (quit)** A throw to `quit` ends the process with the number as its status (0 if there is none) and reports nothing; any other throw is reported and the
handler returns. -/
theorem c144_quit (W : World σ) (s : PS σ) (prog : Option Bytes) (k : Thr.Key) (a : Thr.Args) (first : Option Int) (stack : Option Bytes) :
    (k = .sym (asc "quit") → handleNoexit W s prog k a first stack = .exits (match first with | some n => toInt32 n | none => 0)) ∧
    ((∀ n, k = .sym n → cstr n ≠ asc "quit") → handleNoexit W s prog k a first stack = .returned (report W s prog k a stack)) ∧
    (∀ n : Int, -2 ^ 31 ≤ n → n < 2 ^ 31 → toInt32 n = n) := by
  refine ⟨?_, ?_, ?_⟩
  · rintro rfl
    have : cstr (asc "quit") = asc "quit" := by decide +kernel
    simp only [handleNoexit, this, if_true]
    cases first <;> rfl
  · intro h
    cases k with
    | sym n => simp only [handleNoexit, if_neg (h n rfl)]
    | other => rfl
  · intro n h1 h2
    simp only [toInt32]
    omega

/-! ## Cases -/

set_option maxRecDepth 20000 in
/-- A program that makes a string port the error port, and a throw after that. -/
example : ∃ t as s', step lazyWorld bare .openOutStr = (.ok (.port 3), t) ∧
    runs lazyWorld t [.writeChar 97 (.port 3), .setCurrent .error (.port 3)] = some (as, s') ∧ current s' .error = 3 ∧ StdErr s' :=
  ⟨_, _, _, rfl, rfl, rfl, _, rfl, rfl, rfl, rfl, rfl, _, rfl, rfl⟩

example : (Thr.line (.sym (asc "k")) (.string (asc "text"))).length ≤ 1023 := by decide +kernel

/-- A closed error port while the standard error is open. -/
example : ∃ as s p, runs lazyWorld bare [.openOutStr, .setCurrent .error (.port 3), .closeOut (.port 3)] = some (as, s) ∧
    s.ports[current s .error]? = some p ∧ p.closed = true ∧ p.file = none ∧ StdErr s :=
  ⟨_, _, _, rfl, rfl, rfl, rfl, _, rfl, rfl, rfl, rfl, rfl, _, rfl, rfl⟩

end Pscm
