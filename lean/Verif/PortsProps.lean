import Verif.PortsRun
/-!
# C103 – C107: the port layer
-/
namespace Pscm
open Ports
open Rd (Bytes)
open Port (In Out)

variable {σ : Type}

/-! ## C105 — ports do not interfere -/

/-- C105: in any program, whatever is done with other ports in between, the operations on a port (not a soft port, not the initial port
on standard output, which is number 2) get exactly the answers they would get if the rest of the program were left out. -/
theorem c105_interleaving (W : World σ) (s : PS σ) (hs : AfterProgram W s) (i : Nat) (hi : i ≠ 2) (p : PortRec) (hp : s.ports[i]? = some p)
    (hard : p.kind ≠ .soft) (ops : List Op) (as : List (Option Ans)) (s' : PS σ) (h : runs W s ops = some (as, s')) :
    ∃ t, runs W s (opsOn i ops) = some (answersOn i ops as, t) :=
  interleaving W s hs i hi p hp hard ops as s' h

/-- C105 (input): a port opened on a string delivers that string, byte by byte, to the operations on it, whatever the program does in
between with other ports. -/
theorem c105_string_input (W : World σ) (s : PS σ) (hs : AfterProgram W s) (text : Bytes) (i : Nat) (t : PS σ)
    (hopen : step W s (.openInStr text) = (.ok (.port i), t)) (ops : List Op) (ins : List InOp) (hops : opsOn i ops = ins.map (inOp i))
    (as : List (Option Ans)) (s' : PS σ) (h : runs W t ops = some (as, s')) : answersOn i ops as = (specRun text ins).map seenAs := by
  have hr := reached_step hs hopen
  have h3 := hs.sane.three
  simp only [step, openInputString, newPort] at hopen
  cases hopen
  refine interleaved_input (W := W) hr.tidy (by omega) (p := { blank .strIn true with inp := Port.openIn text })
    ⟨by simp, rfl, by simp [blank], .inr (.inl ⟨rfl, rfl, rfl, rfl, by simp [left, Port.openIn]⟩)⟩ hops h hr

/-! ## C103 — files -/

/-- C103 (reading): a port opened on a file delivers the contents the file had, byte by byte, to the operations on it, whatever the program
does in between with other ports; opening a file that does not exist is an error and changes nothing. -/
theorem c103_file_input (W : World σ) (s : PS σ) (hs : AfterProgram W s) (name : Bytes) :
    (s.files (cstr name) = none → step W s (.openIn name) = (.err .evalError, s)) ∧
    ∀ data, s.files (cstr name) = some data → ∃ i t, step W s (.openIn name) = (.ok (.port i), t) ∧ t.files = s.files ∧
      ∀ (ops : List Op) (ins : List InOp), opsOn i ops = ins.map (inOp i) → ∀ (as : List (Option Ans)) (s' : PS σ),
        runs W t ops = some (as, s') → answersOn i ops as = (specRun data ins).map seenAs := by
  constructor
  · intro h
    simp [step, openInputFile, h]
  · intro data hd
    have e : step W s (.openIn name) = (.ok (.port s.ports.length), { s with
        streams := s.streams ++ [⟨cstr name, Port.openIn data, 0, [], true⟩]
        ports := s.ports ++ [{ blank .fileIn true with file := some s.streams.length }] }) := by
      simp [step, openInputFile, hd, newPort]
    refine ⟨_, _, e, rfl, ?_⟩
    intro ops ins hops as s' h
    have hr := reached_step hs e
    have h3 := hs.sane.three
    refine interleaved_input (W := W) hr.tidy (by omega) (p := { blank .fileIn true with file := some s.streams.length })
      ⟨by simp, rfl, by simp [blank], .inr (.inr ⟨rfl, rfl, s.streams.length, ⟨cstr name, Port.openIn data, 0, [], true⟩, rfl, by simp, rfl, rfl, by simp [left, Port.openIn]⟩)⟩ hops h hr

/-- C103 (writing): a file opened for output is empty at first.  If no other port is open on it and the program does not open it for output
again, then, whatever else the program does, the file at any moment holds a prefix of the text sent to the port, and all of it as soon as the
port was closed or flushed.  Partial: the texts printed must not contain the character NUL, see `c103_nul_counterexample`. -/
theorem c103_file_output_partial (W : World σ) (s : PS σ) (hs : AfterProgram W s) (name : Bytes) (hw : W.writable (cstr name) = true)
    (hfree : NotBeingWritten s (cstr name)) :
    ∃ i t, step W s (.openOut name) = (.ok (.port i), t) ∧ t.files (cstr name) = some [] ∧
      ∀ (ops : List Op), (∀ n, .openOut n ∈ ops → cstr n ≠ cstr name) →
        (∀ m d, .print m d (.port i) ∈ ops → (0 : UInt8) ∉ Rd.print W.flo m d) →
        ∀ (as : List (Option Ans)) (s' : PS σ), runs W t ops = some (as, s') →
          (∃ d, s'.files (cstr name) = some d ∧ d <+: sentTo W.flo i ops) ∧
          (.closeOut (.port i) ∈ ops → s'.files (cstr name) = some (sentTo W.flo i ops)) ∧
          (step W s' (.flush (.port i))).2.files (cstr name) = some (sentTo W.flo i ops) := by
  obtain ⟨a, p, f, w⟩ := open_writing hs.tidy hs.sane hfree
  refine ⟨s.ports.length, afterOpen s name, open_step hw, by simp [afterOpen], ?_⟩
  intro ops hn h0 as s' hrun
  obtain ⟨a', hfs⟩ := (file_runs (W := W) ops _ s' [] as hn h0 hrun a).2 _ _ _ w
  rw [List.nil_append] at hfs
  refine ⟨?_, fun hc => ?_, ?_⟩
  · rcases hfs with ⟨k, p, f, hw'⟩ | hf
    · obtain ⟨d, h1, -, h2⟩ := hw'.disk
      exact ⟨d, h1, ⟨f.pend, h2⟩⟩
    · exact ⟨_, hf.disk, List.prefix_refl _⟩
  · have := (file_closed (W := W) ops _ s' [] as hn h0 hrun a hc _ _ _ w).disk
    simpa using this
  · rcases hfs with ⟨k, p, f, hw'⟩ | hf
    · rcases writing_step (W := W) (o := .flush (.port s.ports.length)) a' hw' (by intro n e; cases e) (by intro m d e; cases e) with
        ⟨-, -, -, h⟩ | ⟨h, -⟩
      · exact h rfl
      · cases h
    · exact (finished_step (W := W) (o := .flush (.port s.ports.length)) a' hf (by intro n e; cases e)).2.disk

/-- C103 (round trip): a program that writes a file, closes the port and opens the file for input then reads, character by character, exactly
what it wrote. -/
theorem c103_roundtrip_partial (W : World σ) (s : PS σ) (hs : AfterProgram W s) (name : Bytes) (hw : W.writable (cstr name) = true)
    (hfree : NotBeingWritten s (cstr name)) :
    ∃ i t, step W s (.openOut name) = (.ok (.port i), t) ∧
      ∀ (ops : List Op), (∀ n, .openOut n ∈ ops → cstr n ≠ cstr name) →
        (∀ m d, .print m d (.port i) ∈ ops → (0 : UInt8) ∉ Rd.print W.flo m d) → .closeOut (.port i) ∈ ops →
        ∀ (as : List (Option Ans)) (s' : PS σ), runs W t ops = some (as, s') →
          ∃ j u, step W s' (.openIn name) = (.ok (.port j), u) ∧
            ∀ (ops' : List Op) (ins : List InOp), opsOn j ops' = ins.map (inOp j) → ∀ (as' : List (Option Ans)) (s'' : PS σ),
              runs W u ops' = some (as', s'') → answersOn j ops' as' = (specRun (sentTo W.flo i ops) ins).map seenAs := by
  obtain ⟨i, t, h1, -, h2⟩ := c103_file_output_partial W s hs name hw hfree
  refine ⟨i, t, h1, fun ops hn h0 hc as s' hrun => ?_⟩
  have hfile := (h2 ops hn h0 as s' hrun).2.1 hc
  obtain ⟨j, u, h3, -, h4⟩ := (c103_file_input W s' ((reached_step hs h1).runs hrun) name).2 _ hfile
  exact ⟨j, u, h3, h4⟩

/-- A world: every file may be written, the C library writes its buffers only when it must, soft-port procedures return nothing. -/
def lazyWorld : World Unit := ⟨fun _ => 0, fun _ => true, fun _ _ u => (.ok none, u), Demo.F0⟩

/-- A machine without files and with nothing on the standard input. -/
def bare : PS Unit := initial (fun _ => none) [] ()

/-- C103: without `close-output-port` or `force-output` nothing need ever be in the file. -/
theorem c103_unflushed_counterexample : ∃ as s', runs lazyWorld bare [.openOut [102], .writeChar 97 (.port 3)] = some (as, s') ∧
    s'.files [102] = some [] := ⟨_, _, rfl, rfl⟩

/-- C103: a NUL character that is displayed never arrives. -/
theorem c103_nul_counterexample : ∃ as s', runs lazyWorld bare
      [.openOut [102], .print false (.chr 0) (.port 3), .writeChar 97 (.port 3), .closeOut (.port 3)] = some (as, s') ∧
    s'.files [102] = some [97] ∧
    sentTo lazyWorld.flo 3 [.print false (.chr 0) (.port 3), .writeChar 97 (.port 3), .closeOut (.port 3)] = [0, 97] :=
  ⟨_, _, rfl, by decide +kernel, by decide +kernel⟩

theorem bare_reached : AfterProgram lazyWorld bare := ⟨_, _, _, [], [], rfl⟩

/-- The hypotheses of the theorems above are met at the start, for any ordinary file name. -/
example (name : Bytes) : NotBeingWritten bare (cstr name) := by
  intro j p k f hp hkind hk hf
  have h0 : (0 : UInt8) ∈ f.path := by
    match j, hp with
    | 0, hp => cases hp; cases hk; cases hf; simp
    | 1, hp => cases hp; cases hkind
    | 2, hp => cases hp; cases hk; cases hf; simp
    | n + 3, hp => simp [bare, initial] at hp
  intro e
  exact cstr_noNul name (e ▸ h0)

example : ∃ as s', runs lazyWorld bare [.openOut [102], .openOut [103], .writeChar 97 (.port 3), .writeChar 120 (.port 4),
      .print true (.pair (.num 1) (.pair (.num 2) .nil)) (.port 3), .newline (.port 3), .closeOut (.port 3), .writeChar 98 (.port 3),
      .openIn [102], .readChar (.port 5), .writeChar 121 (.port 4), .readChar (.port 5), .flush (.port 4)] = some (as, s') ∧
    s'.files [102] = some [97, 40, 49, 32, 50, 41, 10] ∧ s'.files [103] = some [120, 121] := ⟨_, _, rfl, by decide +kernel, by decide +kernel⟩

end Pscm
