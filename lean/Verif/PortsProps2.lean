import Verif.PortsProps
/-!
# C104, C106: closed ports and current ports
-/
namespace Pscm
open Ports
open Rd (Bytes)
open Port (In Out)

variable {σ : Type}

/-! ## C104 — specification -/

/-- What a closed input port answers; `none` is an error. -/
def inertIn : Op → Option Ans
  | .readChar _ | .peekChar _ | .read _ => some .eof
  | .ready _ => some (.bool false)
  | .closeIn _ => some .unspecified
  | .isIn _ => some (.bool true)
  | .isOut _ => some (.bool false)
  | _ => none

/-- What a closed output port answers, if `text` is what `get-output-string` gave before. -/
def inertOut (text : Option Ans) : Op → Option Ans
  | .writeChar _ _ | .print _ _ _ | .newline _ | .flush _ | .closeOut _ => some .unspecified
  | .getOutput _ => text
  | .isIn _ => some (.bool false)
  | .isOut _ => some (.bool true)
  | _ => none

/-! ## Lemmas -/

theorem closed_step {W : World σ} {s : PS σ} {i : Nat} {p : PortRec} (hp : s.ports[i]? = some p) (hc : p.closed = true) {o : Op}
    (ho : addressee o = some i) : (step W s o).2 = s := by
  have gp := getPort_eq hp
  unfold addressee at ho
  split at ho <;> cases ho <;> simp only [step, Ports.readChar, Ports.peekChar, Ports.read, Ports.charReady, Ports.writeChar, Ports.print,
    Ports.newline, forceOutput, getOutputString, closeInputPort, closeOutputPort, isInputPort, isOutputPort, gp, readCharFrom, peekCharFrom,
    writeCharTo, writeStringTo, closePort, hc, if_true, unspec] <;> repeat' (first | rfl | split)

theorem closed_in_answer {W : World σ} {s : PS σ} {i : Nat} {p : PortRec} (hp : s.ports[i]? = some p) (hc : p.closed = true)
    (hd : p.isInput = true) (hk : p.kind ≠ .soft) (hso : p.kind ≠ .strOut) {o : Op} (ho : addressee o = some i) :
    (∃ x, inertIn o = some x ∧ (step W s o).1 = .ok x) ∨ (inertIn o = none ∧ (step W s o).1 = .err .evalError) := by
  have gp := getPort_eq hp
  unfold addressee at ho
  split at ho <;> cases ho <;> simp [step, inertIn, Ports.readChar, Ports.peekChar, Ports.read, Ports.charReady, Ports.writeChar, Ports.print,
    Ports.newline, forceOutput, getOutputString, closeInputPort, closeOutputPort, isInputPort, isOutputPort, gp, readCharFrom, peekCharFrom,
    closePort, hc, hd, hk, hso, ansChar]

theorem closed_out_answer {W : World σ} {s : PS σ} {i : Nat} {p : PortRec} (hp : s.ports[i]? = some p) (hc : p.closed = true)
    (hd : p.isInput = false) (hk : p.kind ≠ .soft) {o : Op} (ho : addressee o = some i) :
    (∃ x, inertOut (if p.kind = .strOut then some (.str (Port.getOutput p.out)) else none) o = some x ∧ (step W s o).1 = .ok x) ∨
    (inertOut (if p.kind = .strOut then some (.str (Port.getOutput p.out)) else none) o = none ∧ (step W s o).1 = .err .evalError) := by
  have gp := getPort_eq hp
  unfold addressee at ho
  by_cases hs : p.kind = .strOut
  all_goals
    split at ho <;> cases ho <;> simp [step, inertOut, Ports.readChar, Ports.peekChar, Ports.read, Ports.charReady, Ports.writeChar, Ports.print,
      Ports.newline, forceOutput, getOutputString, closeInputPort, closeOutputPort, isInputPort, isOutputPort, gp,
      writeCharTo, writeStringTo, closePort, hc, hd, unspec, hk, hs]

/-- The answers to the operations on a port that stays as it is. -/
theorem inert_runs {W : World σ} {i : Nat} {p : PortRec} {f : Op → Option Ans} (hc : p.closed = true)
    (hf : ∀ s : PS σ, s.ports[i]? = some p → ∀ o, addressee o = some i →
      (∃ x, f o = some x ∧ (step W s o).1 = .ok x) ∨ (f o = none ∧ (step W s o).1 = .err .evalError)) :
    ∀ (ops : List Op) (s s' : PS σ) (as : List (Option Ans)), s.ports[i]? = some p → runs W s ops = some (as, s') →
      answersOn i ops as = (opsOn i ops).map f ∧ s'.ports[i]? = some p := by
  intro ops
  induction ops with
  | nil => intro s s' as hp h; rw [runs] at h; cases h; exact ⟨rfl, hp⟩
  | cons o os ih =>
    intro s s' as hp h
    obtain ⟨a, as', rfl, h2, h1⟩ := runs_cons h
    obtain ⟨p', hp', -, -, -, -, -, he⟩ := (step_evolves (W := W) s o).ports i p hp
    rw [he hc] at hp'
    obtain ⟨ih1, ih2⟩ := ih _ _ _ hp' h2
    refine ⟨?_, ih2⟩
    by_cases ho : addressee o = some i
    · have e2 : opsOn i (o :: os) = o :: opsOn i os := by simp [opsOn, ho]
      have e3 : answersOn i (o :: os) (a :: as') = a :: answersOn i os as' := by simp [answersOn, ho]
      rw [e2, e3, List.map_cons, ih1]
      rcases hf s hp o ho with ⟨x, hx, hr⟩ | ⟨hx, hr⟩
      · rcases h1 with ⟨y, rfl, h1⟩ | ⟨e, rfl, h1⟩
        · rw [hr] at h1; cases h1; rw [hx]
        · rw [hr] at h1; cases h1
      · rcases h1 with ⟨y, rfl, h1⟩ | ⟨e, rfl, h1⟩
        · rw [hr] at h1; cases h1
        · rw [hx]
    · have e2 : opsOn i (o :: os) = opsOn i os := by simp [opsOn, ho]
      have e3 : answersOn i (o :: os) (a :: as') = answersOn i os as' := by simp [answersOn, ho]
      rw [e2, e3, ih1]

/-- A port that was closed. -/
theorem close_closed {W : World σ} {s t : PS σ} {i : Nat} {p : PortRec} {x : Ans} (hp : s.ports[i]? = some p)
    (h : closePort W s i p = (.ok x, t)) : ∃ q, t.ports[i]? = some q ∧ q.closed = true ∧ q.isInput = p.isInput ∧ q.kind = p.kind ∧ q.out = p.out := by
  have hlt := (List.getElem?_eq_some_iff.mp hp).1
  unfold closePort at h
  split at h
  · rename_i hc; cases h; exact ⟨p, hp, hc, rfl, rfl, rfl⟩
  · split at h
    · split at h
      · cases h; exact ⟨{ p with closed := true }, by simp [markClosed, setPort, hlt], rfl, rfl, rfl, rfl⟩
      · rename_i f _
        have hc := callProc_ports (W := W) s f []
        generalize callProc W s f [] = z at h hc
        rcases z with ⟨_ | _ | _ | _ | _, s'⟩ <;> cases h
        refine ⟨{ p with closed := true }, ?_, rfl, rfl, rfl, rfl⟩
        simp only [markClosed, setPort]
        rw [show s'.ports = s.ports from by simpa using hc.1]
        simp [hlt]
    · split at h
      · rename_i k _
        simp only [fclose] at h
        rcases getStream_cases s k with ⟨f, hs, -, hg⟩ | ⟨-, hg⟩ <;> rw [hg] at h <;> cases h
        exact ⟨{ p with file := none, closed := true }, by simp [markClosed, setPort, drain, hlt], rfl, rfl, rfl, rfl⟩
      · cases h; exact ⟨{ p with closed := true }, by simp [markClosed, setPort, hlt], rfl, rfl, rfl, rfl⟩

/-! ## C104 -/

/-- C104: an operation on a closed port, of whatever kind, has no effect at all: no file, buffer or other port changes, and no procedure of a
soft port is called. -/
theorem c104_no_effect (W : World σ) (s : PS σ) (i : Nat) (p : PortRec) (hp : s.ports[i]? = some p) (hc : p.closed = true) (o : Op)
    (ho : addressee o = some i) : (step W s o).2 = s := closed_step hp hc ho

/-- C104 (input): after an input port was closed, whatever the program does, reading from the port gives the end-of-file object, no
character is ready, closing it again is harmless, and using it as an output port is an error. -/
theorem c104_input (W : World σ) (s t : PS σ) (i : Nat) (p : PortRec) (hp : s.ports[i]? = some p) (hk : p.kind = .fileIn ∨ p.kind = .strIn)
    (x : Ans) (hclose : step W s (.closeIn (.port i)) = (.ok x, t)) (ops : List Op) (as : List (Option Ans)) (s' : PS σ)
    (h : runs W t ops = some (as, s')) : answersOn i ops as = (opsOn i ops).map inertIn := by
  simp only [step, closeInputPort, getPort_eq hp] at hclose
  split at hclose
  · rename_i hd
    obtain ⟨q, h1, h2, h3, h4, -⟩ := close_closed hp hclose
    refine (inert_runs h2 (fun s hs o ho => closed_in_answer hs h2 (h3.trans hd) ?_ ?_ ho) ops t s' as h1 h).1
    · rw [h4]; rcases hk with hk | hk <;> rw [hk] <;> simp
    · rw [h4]; rcases hk with hk | hk <;> rw [hk] <;> simp
  · cases hclose

/-- C104 (output): after an output port was closed, whatever the program does, writing to the port, flushing it and closing it again do
nothing and report no error, `get-output-string` still gives the text it would have given before, and using it as an input port is an error. -/
theorem c104_output (W : World σ) (s t : PS σ) (i : Nat) (p : PortRec) (hp : s.ports[i]? = some p) (hk : p.kind = .fileOut ∨ p.kind = .strOut)
    (x : Ans) (hclose : step W s (.closeOut (.port i)) = (.ok x, t)) (text : Option Ans)
    (htext : (∃ a, text = some a ∧ step W s (.getOutput (.port i)) = (.ok a, s)) ∨
      (text = none ∧ step W s (.getOutput (.port i)) = (.err .evalError, s))) (ops : List Op) (as : List (Option Ans)) (s' : PS σ)
    (h : runs W t ops = some (as, s')) : answersOn i ops as = (opsOn i ops).map (inertOut text) := by
  simp only [step, closeOutputPort, getPort_eq hp] at hclose
  split at hclose
  · cases hclose
  · rename_i hd
    obtain ⟨q, h1, h2, h3, h4, h5⟩ := close_closed hp hclose
    have ht : text = if q.kind = .strOut then some (.str (Port.getOutput q.out)) else none := by
      simp only [step, getOutputString, getPort_eq hp] at htext
      rw [h4, h5]
      split
      · rename_i hso
        rw [if_pos hso] at htext
        rcases htext with ⟨a, rfl, e⟩ | ⟨-, e⟩ <;> cases e
        rfl
      · rename_i hso
        rw [if_neg hso] at htext
        rcases htext with ⟨a, rfl, e⟩ | ⟨rfl, -⟩
        · cases e
        · rfl
    rw [ht]
    refine (inert_runs h2 (fun s hs o ho => closed_out_answer hs h2 (h3.trans (by simpa using hd)) ?_ ho) ops t s' as h1 h).1
    rw [h4]; rcases hk with hk | hk <;> rw [hk] <;> simp

/-- A port on the string "ab", read once, closed, and used after that. -/
example : ∃ as s', runs lazyWorld bare [.openInStr [97, 98], .readChar (.port 3), .closeIn (.port 3), .readChar (.port 3), .ready (.port 3),
      .peekChar (.port 3), .closeIn (.port 3), .writeChar 97 (.port 3)] = some (as, s') ∧
    as = [some (.port 3), some (.char 97), some .unspecified, some .eof, some (.bool false), some .eof, some .unspecified, none] := ⟨_, _, rfl, rfl⟩

set_option maxRecDepth 20000 in
example : ∃ as s', runs lazyWorld bare [.openOutStr, .writeChar 97 (.port 3), .closeOut (.port 3), .writeChar 98 (.port 3),
      .getOutput (.port 3), .readChar (.port 3)] = some (as, s') ∧
    as = [some (.port 3), some .unspecified, some .unspecified, some .unspecified, some (.str [97]), none] := ⟨_, _, rfl, rfl⟩

/-! ## C106 — specification -/

/-- What the program knows about a current port: it is the last one that was set without an error, or the one there was at the start. -/
def lastSet (c : Cur) (start : Nat) : List Op → List (Option Ans) → Nat
  | .setCurrent c' (.port i) :: os, some _ :: as => lastSet c (if c' = c then i else start) os as
  | _ :: os, _ :: as => lastSet c start os as
  | _, _ => start

/-! ## Lemmas -/

theorem fput_cur {W : World σ} {s : PS σ} {k : Nat} {bs : Bytes} (c : Cur) : current (fput W s k bs).2 c = current s c := by
  unfold fput
  rcases getStream_cases s k with ⟨f, -, -, h⟩ | ⟨-, h⟩ <;> rw [h] <;> cases c <;> rfl

theorem fflush_cur {s : PS σ} {k : Nat} (c : Cur) : current (fflush s k).2 c = current s c := by
  unfold fflush
  rcases getStream_cases s k with ⟨f, -, -, h⟩ | ⟨-, h⟩ <;> rw [h] <;> cases c <;> rfl

theorem fclose_cur {s : PS σ} {k : Nat} (c : Cur) : current (fclose s k).2 c = current s c := by
  unfold fclose
  rcases getStream_cases s k with ⟨f, -, -, h⟩ | ⟨-, h⟩ <;> rw [h] <;> cases c <;> rfl

theorem callProc_cur {W : World σ} (s : PS σ) (f : Obj) (args : List Obj) (c : Cur) : current (callProc W s f args).2 c = current s c := by
  unfold callProc
  split
  · rfl
  · split <;> cases c <;> rfl

theorem intoBuffer_cur {s : PS σ} {i : Nat} {p : PortRec} {r : Res Out} (c : Cur) : current (intoBuffer s i p r).2 c = current s c := by
  cases r <;> cases c <;> rfl

theorem callProc_cur' {W : World σ} {s s' : PS σ} {f : Obj} {args : List Obj} {r : Res (Option Obj)} (c : Cur)
    (h : callProc W s f args = (r, s')) : current s' c = current s c := by have := callProc_cur (W := W) s f args c; rw [h] at this; exact this

theorem readCharFrom_cur {W : World σ} {s : PS σ} {i : Nat} {p : PortRec} (c : Cur) : current (readCharFrom W s i p).2 c = current s c := by
  unfold readCharFrom
  repeat' (first | rfl | exact callProc_cur' c (by assumption) | (cases c <;> rfl) | split)

theorem writeCharTo_cur {W : World σ} {s : PS σ} {i : Nat} {p : PortRec} {b : UInt8} (c : Cur) : current (writeCharTo W s i p b).2 c = current s c := by
  unfold writeCharTo
  repeat' (first | rfl | exact callProc_cur' c (by assumption) | exact fput_cur c | exact intoBuffer_cur c | split)

theorem writeStringTo_cur {W : World σ} {s : PS σ} {i : Nat} {p : PortRec} {b : Bytes} (c : Cur) : current (writeStringTo W s i p b).2 c = current s c := by
  unfold writeStringTo
  repeat' (first | rfl | exact fput_cur c | exact intoBuffer_cur c | split)

theorem closePort_cur {W : World σ} {s : PS σ} {i : Nat} {p : PortRec} (c : Cur) : current (closePort W s i p).2 c = current s c := by
  have mark : ∀ (s : PS σ) (q : PortRec), current (markClosed s i q) c = current s c := fun s q => by cases c <;> rfl
  have fc : ∀ (k : Nat) (r : Res Unit) (s' : PS σ), fclose s k = (r, s') → current s' c = current s c := fun k r s' h => by
    have := fclose_cur (s := s) (k := k) c; rw [h] at this; exact this
  unfold closePort
  repeat' (first | rfl | exact mark _ _ | exact (mark _ _).trans (callProc_cur' c (by assumption)) | exact callProc_cur' c (by assumption) |
    exact (mark _ _).trans (fc _ _ _ (by assumption)) | exact fc _ _ _ (by assumption) | split)

/-- Only `set-current-…-port` changes the current ports. -/
theorem step_cur {W : World σ} {s : PS σ} {o : Op} (ho : ∀ c a, o ≠ .setCurrent c a) (c : Cur) : current (step W s o).2 c = current s c := by
  have rc : ∀ (i : Nat) (p : PortRec) (r : Res (Option UInt8)) (s' : PS σ), readCharFrom W s i p = (r, s') → current s' c = current s c :=
    fun i p r s' h => by have := readCharFrom_cur (W := W) (s := s) (i := i) (p := p) c; rw [h] at this; exact this
  cases o
  case setCurrent c' a => exact absurd rfl (ho c' a)
  case openIn => simp only [step, openInputFile]; split <;> cases c <;> rfl
  case openOut => simp only [step, openOutputFile]; split <;> cases c <;> rfl
  case openInStr => cases c <;> rfl
  case openOutStr => cases c <;> rfl
  case soft => simp only [step, makeSoftPort]; repeat' (first | rfl | (cases c <;> rfl) | split)
  case readChar a =>
    cases a <;> simp only [step, Ports.readChar]
    repeat' (first | rfl | exact rc _ _ _ _ (by assumption) | split)
  case peekChar a => cases a <;> simp only [step, Ports.peekChar]; repeat' (first | rfl | split)
  case read a => cases a <;> simp only [step, Ports.read]; repeat' (first | rfl | (cases c <;> rfl) | split)
  case ready a => cases a <;> simp only [step, Ports.charReady]; repeat' (first | rfl | split)
  case writeChar b a =>
    cases a <;> simp only [step, Ports.writeChar]
    all_goals repeat' (first | rfl | (rw [unspec_snd]; exact fput_cur c) | (rw [unspec_snd]; exact writeCharTo_cur c) | split)
  case print m d a =>
    cases a <;> simp only [step, Ports.print]
    all_goals repeat' (first | rfl | (rw [unspec_snd]; exact fput_cur c) | (rw [unspec_snd]; exact writeStringTo_cur c) | split)
  case newline a =>
    cases a <;> simp only [step, Ports.newline]
    all_goals repeat' (first | rfl | (rw [unspec_snd]; exact fput_cur c) | (rw [unspec_snd]; exact writeCharTo_cur c) | split)
  case flush a =>
    cases a <;> simp only [step, Ports.forceOutput]
    all_goals repeat' (first | rfl | (rw [unspec_snd]; exact fflush_cur c) | exact callProc_cur' c (by assumption) | split)
  case getOutput a => cases a <;> simp only [step, getOutputString]; repeat' (first | rfl | split)
  case closeIn a => cases a <;> simp only [step, closeInputPort]; repeat' (first | rfl | exact closePort_cur c | split)
  case closeOut a => cases a <;> simp only [step, closeOutputPort]; repeat' (first | rfl | exact closePort_cur c | split)
  case isIn a => cases a <;> simp only [step, isInputPort]; repeat' (first | rfl | split)
  case isOut a => cases a <;> simp only [step, isOutputPort]; repeat' (first | rfl | split)
  case current => rfl

/-- The current ports have the right direction. -/
def CurOk (s : PS σ) : Prop := ∀ c, ∃ p, s.ports[current s c]? = some p ∧ p.isInput = decide (c = .input)

theorem curOk_step {W : World σ} {s : PS σ} (h : CurOk s) (o : Op) : CurOk (step W s o).2 := by
  have ev := step_evolves (W := W) s o
  by_cases ho : ∃ c a, o = .setCurrent c a
  · obtain ⟨c, a, rfl⟩ := ho
    cases a <;> try exact h
    rename_i i
    simp only [step, setCurrent]
    rcases getPort_cases s i with ⟨p, hp, hg⟩ | ⟨-, hg⟩ <;> rw [hg]
    · simp only
      split
      · rename_i hd
        intro c'
        cases c <;> cases c' <;> first | exact ⟨p, hp, hd⟩ | exact h .input | exact h .output | exact h .error
      · exact h
    · exact h
  · intro c
    obtain ⟨p, hp, hd⟩ := h c
    rw [step_cur (fun c a e => ho ⟨c, a, e⟩)]
    obtain ⟨q, hq, -, h2, -⟩ := ev.ports _ p hp
    exact ⟨q, hq, h2.trans hd⟩

theorem AfterProgram.curOk {W : World σ} {s : PS σ} (h : AfterProgram W s) : CurOk s := by
  obtain ⟨files, stdin, u, before, as, e⟩ := h
  have key : ∀ (ops : List Op) (s s' : PS σ) (as : List (Option Ans)), CurOk s → Ports.runs W s ops = some (as, s') → CurOk s' := by
    intro ops
    induction ops with
    | nil => intro s s' as h e; rw [Ports.runs] at e; cases e; exact h
    | cons o os ih =>
      intro s s' as h e
      obtain ⟨a, as', -, h2, -⟩ := runs_cons e
      exact ih _ _ _ (curOk_step h o) h2
  refine key before _ _ as (fun c => ?_) e
  cases c
  · exact ⟨_, rfl, rfl⟩
  · exact ⟨_, rfl, rfl⟩
  · exact ⟨_, rfl, rfl⟩

/-! ## C106 -/

/-- C106: in any program `(current-input-port)` and the like return the port that was set last, and it has the right direction. -/
theorem c106_current (W : World σ) (s : PS σ) (hs : AfterProgram W s) (ops : List Op) (as : List (Option Ans)) (s' : PS σ)
    (h : runs W s ops = some (as, s')) (c : Cur) :
    step W s' (.current c) = (.ok (.port (lastSet c (current s c) ops as)), s') ∧
    (c = .input → step W s' (.isIn (.port (lastSet c (current s c) ops as))) = (.ok (.bool true), s')) ∧
    (c ≠ .input → step W s' (.isOut (.port (lastSet c (current s c) ops as))) = (.ok (.bool true), s')) := by
  have key : ∀ (ops : List Op) (s : PS σ) (as : List (Option Ans)), runs W s ops = some (as, s') → current s' c = lastSet c (current s c) ops as := by
    intro ops
    induction ops with
    | nil => intro s as h; rw [runs] at h; cases h; rfl
    | cons o os ih =>
      intro s as h
      obtain ⟨a, as', rfl, h2, h1⟩ := runs_cons h
      rw [ih _ _ h2]
      by_cases ho : ∃ c' a', o = .setCurrent c' a'
      · obtain ⟨c', a', rfl⟩ := ho
        have none_case : (step W s (.setCurrent c' a')).2 = s → a = none →
            lastSet c (current (step W s (.setCurrent c' a')).2 c) os as' = lastSet c (current s c) (.setCurrent c' a' :: os) (a :: as') := by
          rintro e rfl
          rw [e]
          cases a' <;> rfl
        cases a' with
        | port i =>
          simp only [step, setCurrent] at h1 none_case ⊢
          rcases getPort_cases s i with ⟨p, hp, hg⟩ | ⟨-, hg⟩ <;> rw [hg] at h1 none_case ⊢
          · simp only at h1 none_case ⊢
            split at h1
            · rename_i hd
              rw [if_pos hd]
              rcases h1 with ⟨x, rfl, h1⟩ | ⟨e, rfl, h1⟩
              · cases c' <;> cases c <;> rfl
              · cases h1
            · rename_i hd
              rw [if_neg hd] at none_case ⊢
              rcases h1 with ⟨x, rfl, h1⟩ | ⟨e, rfl, h1⟩
              · cases h1
              · exact none_case rfl rfl
          · rcases h1 with ⟨x, rfl, h1⟩ | ⟨e, rfl, h1⟩ <;> cases h1
        | absent =>
          rcases h1 with ⟨x, rfl, h1⟩ | ⟨e, rfl, h1⟩
          · cases h1
          · exact none_case rfl rfl
        | other =>
          rcases h1 with ⟨x, rfl, h1⟩ | ⟨e, rfl, h1⟩
          · cases h1
          · exact none_case rfl rfl
      · rw [step_cur fun c a e => ho ⟨c, a, e⟩]
        cases o <;> first | rfl | exact absurd ⟨_, _, rfl⟩ ho
  have hk := key ops s as h
  obtain ⟨p, hp, hd⟩ := (hs.runs h).curOk c
  rw [hk] at hp
  refine ⟨by rw [← hk]; rfl, fun hc => ?_, fun hc => ?_⟩
  · subst hc; simp [step, isInputPort, getPort_eq hp, hd]
  · simp [step, isOutputPort, getPort_eq hp, hd, hc]

/-- C106: setting a current port returns the one there was; a port of the wrong direction or another object is refused with an error and
changes nothing. -/
theorem c106_set (W : World σ) (s : PS σ) (c : Cur) (i : Nat) (p : PortRec) (hp : s.ports[i]? = some p) :
    (p.isInput = decide (c = .input) → ∃ t, step W s (.setCurrent c (.port i)) = (.ok (.port (current s c)), t) ∧
      current t c = i ∧ (∀ c', c' ≠ c → current t c' = current s c') ∧ t.ports = s.ports ∧ t.files = s.files) ∧
    (p.isInput ≠ decide (c = .input) → step W s (.setCurrent c (.port i)) = (.err .evalError, s)) ∧
    step W s (.setCurrent c .other) = (.err .evalError, s) := by
  refine ⟨fun hd => ?_, fun hd => ?_, rfl⟩
  · simp only [step, setCurrent, getPort_eq hp, if_pos hd]
    refine ⟨_, rfl, ?_, ?_, ?_, ?_⟩
    · cases c <;> rfl
    · intro c' hc; cases c <;> cases c' <;> first | rfl | exact absurd rfl hc
    · cases c <;> rfl
    · cases c <;> rfl
  · simp only [step, setCurrent, getPort_eq hp, if_neg hd]

/-- C106: at the start the current input, output and error ports are standard input, standard output and standard error: what is written to the ports
the program gets and flushed arrives there, and what it reads comes from standard input. -/
theorem c106_start (W : World σ) (files : Bytes → Option Bytes) (stdin : Bytes) (u : σ) (c d : UInt8) (h1 : files [0, 1] = none)
    (h2 : files [0, 2] = none) :
    ∃ i o e as s', runs W (initial files stdin u) [.current .input, .current .output, .current .error, .writeChar c (.port o), .flush (.port o),
        .writeChar d (.port e), .flush (.port e), .readChar (.port i)] = some (as, s') ∧
      as.take 3 = [some (.port i), some (.port o), some (.port e)] ∧
      as.getD 7 none = some (match stdin with | [] => .eof | b :: _ => .char b) ∧
      s'.files [0, 1] = some [c] ∧ s'.files [0, 2] = some [d] := by
  have hk : ∀ (x : UInt8), W.spill [x] = 0 ∨ ∃ n, W.spill [x] = n + 1 := fun x => by cases W.spill [x]; exact .inl rfl; exact .inr ⟨_, rfl⟩
  refine ⟨1, 2, 0, ?_⟩
  cases stdin <;> rcases hk c with hc | ⟨n, hc⟩ <;> rcases hk d with hd | ⟨m, hd⟩ <;>
  · refine ⟨_, _, rfl, rfl, rfl, ?_, ?_⟩ <;>
      simp [initial, fput, fflush, drain, getStream, hc, hd, h1, h2, overwrite, blank, stdoutK, unspec, setPort]

/-- C106: `write-char`, `display`, `write` and `newline` without a port do not write to the current output port but to the standard output,
whatever was set.  Here a string port is made the current output port, and all four are used: it receives nothing. -/
theorem c106_counterexample : ∃ as s', runs lazyWorld bare [.openOutStr, .setCurrent .output (.port 3), .current .output, .writeChar 97 .absent,
      .print false (.num 1) .absent, .newline .absent, .getOutput (.port 3)] = some (as, s') ∧
    as.getD 2 none = some (.port 3) ∧ as.getD 6 none = some (.str []) ∧ (∃ f, s'.streams[1]? = some f ∧ f.pend = [97, 49, 10]) := by
  refine ⟨_, _, rfl, rfl, rfl, _, rfl, by decide +kernel⟩

/-- C106: once the program has closed the initial output port, writing without a port is undefined behaviour (the C stream `stdout` is closed). -/
theorem c106_closed_counterexample : runs lazyWorld bare [.closeOut (.port 2), .writeChar 97 .absent] = none := rfl

/-- C106: reading without a port is an error, although there is a current input port. -/
theorem c106_input_counterexample (W : World σ) (s : PS σ) :
    step W s (.readChar .absent) = (.err .evalError, s) ∧ step W s (.peekChar .absent) = (.err .evalError, s) ∧
    step W s (.read .absent) = (.err .evalError, s) := ⟨rfl, rfl, rfl⟩

example : ∃ as s', runs lazyWorld bare [.openInStr [97], .setCurrent .input (.port 3), .setCurrent .output (.port 3), .current .input,
    .current .output, .setCurrent .input (.port 1)] = some (as, s') ∧
    as = [some (.port 3), some (.port 1), none, some (.port 3), some (.port 2), some (.port 3)] := ⟨_, _, rfl, rfl⟩

end Pscm
