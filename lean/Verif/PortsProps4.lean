import Verif.PortsCallLemmas
import Verif.PortsProps3
/-!
# C105 (string output), C108 (no undefined behaviour) and C109 (`call-with-…`)
-/
namespace Pscm
open Ports
open Rd (Bytes)
open Port (In Out)

variable {σ : Type}

/-! ## C105 — string output -/

/-- C105 (output): what `get-output-string` returns is exactly the text sent to the port since it was opened (up to its closing), whatever the
program does in between with other ports.  Partial: the printed texts must not contain NUL and the whole must be shorter than 2^30 bytes. -/
theorem c105_string_output_partial (W : World σ) (s : PS σ) (i : Nat) (t : PS σ)
    (hopen : step W s .openOutStr = (.ok (.port i), t)) (ops : List Op)
    (h0 : ∀ m d, .print m d (.port i) ∈ ops → (0 : UInt8) ∉ Rd.print W.flo m d) (hb : (sentTo W.flo i ops).length + 1 < 2 ^ 30)
    (as : List (Option Ans)) (s' : PS σ) (h : runs W t ops = some (as, s')) :
    step W s' (.getOutput (.port i)) = (.ok (.str (sentTo W.flo i ops)), s') := by
  simp only [step, openOutputString, newPort] at hopen
  cases hopen
  obtain ⟨q, hq⟩ := (collect_runs (W := W) (i := s.ports.length) ops _ s' [] as h0 (by simpa using hb) h).2
    { blank .strOut false with out := Port.openOut } ⟨by simp, rfl, rfl, rfl, rfl, openOut_holds⟩
  rw [List.nil_append] at hq
  rcases hq with hq | hq
  · simp [step, getOutputString, getPort_eq hq.port, hq.kind, hq.data.get]
  · simp [step, getOutputString, getPort_eq hq.port, hq.kind, hq.data]

set_option maxRecDepth 20000 in
example : ∃ t as s', step lazyWorld bare .openOutStr = (.ok (.port 3), t) ∧
    runs lazyWorld t [.writeChar 97 (.port 3), .openOutStr, .newline (.port 4), .print false (.num 12) (.port 3), .closeOut (.port 3), .newline (.port 3)]
      = some (as, s') ∧
    sentTo lazyWorld.flo 3 [.writeChar 97 (.port 3), .openOutStr, .newline (.port 4), .print false (.num 12) (.port 3), .closeOut (.port 3),
      .newline (.port 3)] = [97, 49, 50] := ⟨_, _, _, rfl, rfl, by decide +kernel⟩

/-! ## C108 — no undefined behaviour -/

/-- C108: as long as the program does not close the initial port on standard output, no operation on ports has undefined behaviour or aborts:
it returns or raises a Scheme error; so does every program.  Partial: the soft-port procedures must themselves return or raise, and the text
written must be shorter than 2^30 bytes in all. -/
theorem c108_defined_partial (W : World σ) (hW : Tame W) (files : Bytes → Option Bytes) (stdin : Bytes) (u : σ) (before : List Op)
    (as : List (Option Ans)) (s : PS σ) (h : runs W (initial files stdin u) before = some (as, s)) (o : Op)
    (hc : .closeOut (.port 2) ∉ before ++ [o]) (hv : ∀ i, handle o = some i → i < s.ports.length)
    (hb : ((before ++ [o]).map (volume W.flo)).sum + 1 < 2 ^ 30) :
    (∃ a, (step W s o).1 = .ok a) ∨ ∃ e, (step W s o).1 = .err e := by
  simp only [List.map_append, List.sum_append, List.map_cons, List.map_nil, List.sum_cons, List.sum_nil] at hb
  simp only [List.mem_append, List.mem_singleton, not_or] at hc
  obtain ⟨t, sf⟩ := runs_safe hW before _ s as 0 (tidy_initial files stdin u) (safe_initial files stdin u) hc.1 (by omega) h
  exact (step_good hW t sf (o := o) (fun e => hc.2 e.symm) (fun i hi => hv i (handle_arg hi)) (by omega)).1

example : Tame lazyWorld := fun _ _ _ => .inl ⟨_, rfl⟩

/-! ## C109 — `call-with-input-file`, `call-with-output-file`, `call-with-input-string`, `call-with-output-string` -/

/-- C109: without a string or a procedure where they belong, these raise an error and do nothing: `call-with-output-file` does not truncate
the file. -/
theorem c109_arguments (W : World σ) (s : PS σ) (name : Option Bytes) (f : Option Callee) (h : name = none ∨ f = none) :
    callWithInputFile W s name f = (.err .evalError, s) ∧ callWithOutputFile W s name f = (.err .evalError, s) ∧
    callWithInputString W s name f = (.err .evalError, s) ∧ callWithOutputString W s none = (.err .evalError, s) := by
  rcases h with rfl | rfl
  · exact ⟨rfl, rfl, rfl, rfl⟩
  · cases name <;> exact ⟨rfl, rfl, rfl, rfl⟩

/-- C109 (`call-with-input-file`): a missing file is an error.  Otherwise the procedure is called with a port on which its operations get exactly
the contents of the file; if it returns, its value is returned and the port is closed, if it raises an error, the error is raised. -/
theorem c109_input_file (W : World σ) (s : PS σ) (hs : AfterProgram W s) (name : Bytes) (f : Callee) :
    (s.files (cstr name) = none → callWithInputFile W s (some name) (some f) = (.err .evalError, s)) ∧
    ∀ data, s.files (cstr name) = some data → ∃ i t, step W s (.openIn name) = (.ok (.port i), t) ∧
      ∀ (as : List (Option Ans)) (s' : PS σ), runs W t (f.ops i) = some (as, s') →
        (∀ ins : List InOp, opsOn i (f.ops i) = ins.map (inOp i) → answersOn i (f.ops i) as = (specRun data ins).map seenAs) ∧
        (∀ e, f.ends i = .err e → callWithInputFile W s (some name) (some f) = (.err e, s')) ∧
        ∀ r, f.ends i = .ok r → ∃ u q, callWithInputFile W s (some name) (some f) = (.ok r, u) ∧ u.files = s'.files ∧
          u.ports[i]? = some q ∧ q.closed = true := by
  constructor
  · intro h
    simp [callWithInputFile, openInputFile, h]
  · intro data hd
    obtain ⟨i, t, h1, -, h3⟩ := (c103_file_input W s hs name).2 data hd
    refine ⟨i, t, h1, fun as s' hrun => ⟨fun ins hops => h3 _ ins hops as s' hrun, fun e he => ?_, fun r hr => ?_⟩⟩
    · simp only [step] at h1
      simp [callWithInputFile, h1, callee, hrun, he]
    · have hsane := hs.sane
      have htidy := (reached_step hs h1).tidy
      have h2 := hs.tidy.std
      simp only [step] at h1
      have h1' := h1
      simp only [openInputFile, hd, newPort] at h1'
      have hi : i = s.ports.length := by
        have := (Prod.mk.inj h1').1
        cases this; rfl
      subst hi
      have ht := (Prod.mk.inj h1').2
      have hrd : Reading t s.ports.length { blank .fileIn true with file := some s.streams.length } := by
        subst ht
        refine ⟨by simp, rfl, rfl, .inr ⟨s.streams.length, ⟨cstr name, Port.openIn data, 0, [], true⟩, rfl, by simp [stdoutK]; omega, by simp, rfl⟩⟩
      obtain ⟨q, hq⟩ := reading_runs (W := W) _ t s' as _ htidy hrd hrun
      have gp := getPort_eq hq.port
      have hlt := (List.getElem?_eq_some_iff.mp hq.port).1
      by_cases hc : q.closed = true
      · refine ⟨s', q, ?_, rfl, hq.port, hc⟩
        simp [callWithInputFile, h1, callee, hrun, hr, closeInputPort, gp, hq.dir, closePort, hc]
      · have hc' : q.closed = false := by simpa using hc
        obtain ⟨k, g, h5, h6, h7, h8⟩ := hq.live.resolve_left hc
        have hg : getStream s' k = .ok g := by simp [Ports.getStream, h7, h8]
        have hcl := ((reached_step hs (o := .openIn name) h1).runs hrun).sane.clean _ q k g hq.port h5 h7 (by rw [hq.kind]; simp)
        refine ⟨markClosed (drain s' k { g with isOpen := false } g.pend.length) s.ports.length { q with file := none },
          { q with closed := true, file := none }, ?_, ?_, ?_, rfl⟩
        · simp [callWithInputFile, h1, callee, hrun, hr, closeInputPort, gp, hq.dir, closePort, hc', hq.kind, h5, fclose, hg]
        · funext n
          simp [markClosed, setPort, drain, hcl]
        · simp [markClosed, setPort, drain, hlt]

/-- C109 (`call-with-output-file`): the procedure is called with a port on the file, which is empty at first; if it returns, its value is
returned, the port is closed and the file holds exactly the text the procedure sent to the port.  Partial as `c103_file_output_partial`; and
if the procedure raises an error, the text may be lost, see `c109_error_counterexample`. -/
theorem c109_output_file_partial (W : World σ) (s : PS σ) (hs : AfterProgram W s) (name : Bytes) (hw : W.writable (cstr name) = true)
    (hfree : NotBeingWritten s (cstr name)) (f : Callee) :
    ∃ i t, step W s (.openOut name) = (.ok (.port i), t) ∧ t.files (cstr name) = some [] ∧
      ∀ (as : List (Option Ans)) (s' : PS σ), runs W t (f.ops i) = some (as, s') →
        (∀ e, f.ends i = .err e → callWithOutputFile W s (some name) (some f) = (.err e, s')) ∧
        ∀ r, f.ends i = .ok r → (∀ n, .openOut n ∈ f.ops i → cstr n ≠ cstr name) →
          (∀ m d, .print m d (.port i) ∈ f.ops i → (0 : UInt8) ∉ Rd.print W.flo m d) →
          ∃ u q, callWithOutputFile W s (some name) (some f) = (.ok r, u) ∧ u.files (cstr name) = some (sentTo W.flo i (f.ops i)) ∧
            u.ports[i]? = some q ∧ q.closed = true := by
  obtain ⟨a, p, g, w⟩ := open_writing hs.tidy hs.sane hfree
  have h1 := open_step (W := W) (s := s) hw
  refine ⟨s.ports.length, afterOpen s name, h1, by simp [afterOpen], fun as s' hrun => ⟨fun e he => ?_, fun r hr hn h0 => ?_⟩⟩
  · simp only [step] at h1
    simp [callWithOutputFile, h1, callee, hrun, he]
  · simp only [step] at h1
    obtain ⟨a', hfs⟩ := (file_runs (W := W) _ _ s' [] as hn h0 hrun a).2 _ _ _ w
    rw [List.nil_append] at hfs
    rcases hfs with ⟨k, q, g', hw'⟩ | hf
    · rcases writing_step (W := W) (o := .closeOut (.port s.ports.length)) a' hw' (by intro n e; cases e) (by intro m d e; cases e) with
        ⟨h, -⟩ | ⟨-, -, h⟩
      · exact absurd rfl h
      · obtain ⟨q', h2, -, -, h3⟩ := h.port
        refine ⟨_, q', ?_, h.disk, h2, h3⟩
        have hg : getStream s' k = .ok g' := by simp [Ports.getStream, hw'.stream, hw'.live]
        have hok : (closeOutputPort W s' (.port s.ports.length)).1 = .ok .unspecified := by
          simp [closeOutputPort, getPort_eq hw'.port, hw'.dir, closePort, hw'.opened, hw'.kind, hw'.file, fclose, hg]
        simp only [callWithOutputFile, h1, callee, hrun, hr, step]
        revert hok
        generalize closeOutputPort W s' (.port s.ports.length) = x
        rcases x with ⟨y, z⟩
        rintro rfl
        rfl
    · obtain ⟨q', h2, h3, h4, h5⟩ := hf.port
      refine ⟨s', q', ?_, hf.disk, h2, h5⟩
      simp [callWithOutputFile, h1, callee, hrun, hr, closeOutputPort, getPort_eq h2, h4, closePort, h5]

/-- C109 (`call-with-input-string`): the operations of the procedure on the port it is given get exactly the string; it ends as the procedure
ends. -/
theorem c109_input_string (W : World σ) (s : PS σ) (hs : AfterProgram W s) (text : Bytes) (f : Callee) :
    ∃ i t, step W s (.openInStr text) = (.ok (.port i), t) ∧
      ∀ (as : List (Option Ans)) (s' : PS σ), runs W t (f.ops i) = some (as, s') →
        callWithInputString W s (some text) (some f) = (f.ends i, s') ∧
        ∀ ins : List InOp, opsOn i (f.ops i) = ins.map (inOp i) → answersOn i (f.ops i) as = (specRun text ins).map seenAs := by
  refine ⟨_, _, rfl, fun as s' hrun => ⟨?_, fun ins hops => c105_string_input W s hs text _ _ rfl _ ins hops as s' hrun⟩⟩
  simp only [callWithInputString, openInputString, newPort, callee, hrun]

/-- C109 (`call-with-output-string`): if the procedure returns, the result is exactly the text it sent to the port, whatever it returned.
Partial as `c105_string_output_partial`. -/
theorem c109_output_string_partial (W : World σ) (s : PS σ) (f : Callee) :
    ∃ i t, step W s .openOutStr = (.ok (.port i), t) ∧
      ∀ (as : List (Option Ans)) (s' : PS σ), runs W t (f.ops i) = some (as, s') →
        (∀ e, f.ends i = .err e → callWithOutputString W s (some f) = (.err e, s')) ∧
        ∀ r, f.ends i = .ok r → (∀ m d, .print m d (.port i) ∈ f.ops i → (0 : UInt8) ∉ Rd.print W.flo m d) →
          (sentTo W.flo i (f.ops i)).length + 1 < 2 ^ 30 →
          callWithOutputString W s (some f) = (.ok (.str (sentTo W.flo i (f.ops i))), s') := by
  refine ⟨_, _, rfl, fun as s' hrun => ⟨fun e he => ?_, fun r hr h0 hb => ?_⟩⟩
  · simp only [callWithOutputString, openOutputString, newPort, callee, hrun, he]
  · have := c105_string_output_partial W s _ _ rfl _ h0 hb as s' hrun
    simp only [step] at this
    simp only [callWithOutputString, openOutputString, newPort, callee, hrun, hr, this]

/-- C109: when the procedure raises an error, `call-with-output-file` leaves the port open and the text written so far need not be in the file. -/
theorem c109_error_counterexample : ∃ s' q,
    callWithOutputFile lazyWorld bare (some [102]) (some ⟨fun i => [.writeChar 97 (.port i)], fun _ => .err .evalError⟩) = (.err .evalError, s') ∧
    s'.files [102] = some [] ∧ s'.ports[3]? = some q ∧ q.closed = false := ⟨_, _, rfl, rfl, rfl, rfl⟩

set_option maxRecDepth 20000 in
/-- The cases of the theorems above occur: a file is written and read back, a string is written. -/
example : ∃ u v w, callWithOutputFile lazyWorld bare (some [102]) (some ⟨fun i => [.writeChar 97 (.port i), .newline (.port i)], fun _ => .ok (.bool true)⟩)
      = (.ok (.bool true), u) ∧ u.files [102] = some [97, 10] ∧
    callWithInputFile lazyWorld u (some [102]) (some ⟨fun i => [.readChar (.port i)], fun _ => .ok .eof⟩) = (.ok .eof, v) ∧
    callWithOutputString lazyWorld v (some ⟨fun i => [.print false (.num 12) (.port i)], fun _ => .ok .eof⟩) = (.ok (.str [49, 50]), w) :=
  ⟨_, _, _, rfl, by decide +kernel, rfl, rfl⟩

end Pscm
