import Verif.PortsProps2
/-!
# Lemmas for C107: soft ports
-/
namespace Pscm
open Ports
open Rd (Bytes)
open Port (In Out)

variable {σ : Type}

/-- A procedure or a builtin. -/
def Callable (f : Obj) : Prop := ∃ n, f.v = .other .proc n ∨ f.v = .other .func n

/-! ## Lemmas -/

theorem fput_user {W : World σ} {s : PS σ} {k : Nat} {bs : Bytes} : (fput W s k bs).2.user = s.user := by
  unfold fput
  rcases getStream_cases s k with ⟨f, -, -, h⟩ | ⟨-, h⟩ <;> rw [h] <;> rfl

theorem fflush_user {s : PS σ} {k : Nat} : (fflush s k).2.user = s.user := by
  unfold fflush
  rcases getStream_cases s k with ⟨f, -, -, h⟩ | ⟨-, h⟩ <;> rw [h] <;> rfl

theorem fclose_user {s : PS σ} {k : Nat} : (fclose s k).2.user = s.user := by
  unfold fclose
  rcases getStream_cases s k with ⟨f, -, -, h⟩ | ⟨-, h⟩ <;> rw [h] <;> rfl

theorem intoBuffer_user {s : PS σ} {i : Nat} {p : PortRec} {r : Res Out} : (intoBuffer s i p r).2.user = s.user := by cases r <;> rfl

theorem readCharFrom_user {W : World σ} {s : PS σ} {i : Nat} {p : PortRec} (hk : p.kind ≠ .soft) : (readCharFrom W s i p).2.user = s.user := by
  unfold readCharFrom
  repeat' (first | rfl | exact absurd (by assumption) hk | split)

theorem writeCharTo_user {W : World σ} {s : PS σ} {i : Nat} {p : PortRec} {b : UInt8} (hk : p.kind ≠ .soft) : (writeCharTo W s i p b).2.user = s.user := by
  unfold writeCharTo
  repeat' (first | rfl | exact absurd (by assumption) hk | exact fput_user | exact intoBuffer_user | split)

theorem writeStringTo_user {W : World σ} {s : PS σ} {i : Nat} {p : PortRec} {b : Bytes} : (writeStringTo W s i p b).2.user = s.user := by
  unfold writeStringTo
  repeat' (first | rfl | exact fput_user | exact intoBuffer_user | split)

theorem closePort_user {W : World σ} {s : PS σ} {i : Nat} {p : PortRec} (hk : p.kind ≠ .soft) : (closePort W s i p).2.user = s.user := by
  have fc : ∀ (k : Nat) (r : Res Unit) (s' : PS σ), fclose s k = (r, s') → s'.user = s.user := fun k r s' h => by
    have := fclose_user (s := s) (k := k); rw [h] at this; exact this
  unfold closePort
  rw [if_neg hk]
  repeat' (first | rfl | exact fc _ _ _ (by assumption) | (simp only [markClosed, setPort]; exact fc _ _ _ (by assumption)) | split)

/-- Operations on other ports call no soft-port procedure. -/
theorem step_user {W : World σ} {s : PS σ} {o : Op} (ho : ∀ i p, o.arg = .port i → s.ports[i]? = some p → p.kind ≠ .soft) :
    (step W s o).2.user = s.user := by
  have rc : ∀ (i : Nat) (p : PortRec) (r : Res (Option UInt8)) (s' : PS σ), p.kind ≠ .soft → readCharFrom W s i p = (r, s') → s'.user = s.user :=
    fun i p r s' hk h => by have := readCharFrom_user (W := W) (s := s) (i := i) (p := p) hk; rw [h] at this; exact this
  have hard : ∀ i p, o.arg = .port i → getPort s i = .ok p → p.kind ≠ .soft := fun i p h hp => by
    rcases getPort_cases s i with ⟨q, hq, hg⟩ | ⟨-, hg⟩ <;> rw [hg] at hp <;> cases hp
    exact ho i p h hq
  cases o
  case openIn => simp only [step, openInputFile]; split <;> rfl
  case openOut => simp only [step, openOutputFile]; split <;> rfl
  case openInStr => rfl
  case openOutStr => rfl
  case soft => simp only [step, makeSoftPort]; repeat' (first | rfl | split)
  case readChar a =>
    cases a <;> simp only [step, Ports.readChar]
    rename_i i
    rcases getPort_cases s i with ⟨p, -, hg⟩ | ⟨-, hg⟩ <;> rw [hg]
    · have hk := hard i p rfl hg
      simp only
      repeat' (first | rfl | exact rc _ _ _ _ hk (by assumption) | split)
  case peekChar a => cases a <;> simp only [step, Ports.peekChar]; repeat' (first | rfl | split)
  case read a => cases a <;> simp only [step, Ports.read]; repeat' (first | rfl | split)
  case ready a => cases a <;> simp only [step, Ports.charReady]; repeat' (first | rfl | split)
  case writeChar b a =>
    cases a <;> simp only [step, Ports.writeChar]
    · rw [unspec_snd]; exact fput_user
    · rename_i i
      rcases getPort_cases s i with ⟨p, -, hg⟩ | ⟨-, hg⟩ <;> rw [hg]
      · have hk := hard i p rfl hg
        simp only
        repeat' (first | rfl | (rw [unspec_snd]; exact writeCharTo_user hk) | split)
  case print m d a =>
    cases a <;> simp only [step, Ports.print]
    all_goals repeat' (first | rfl | (rw [unspec_snd]; exact fput_user) | (rw [unspec_snd]; exact writeStringTo_user) | split)
  case newline a =>
    cases a <;> simp only [step, Ports.newline]
    · rw [unspec_snd]; exact fput_user
    · rename_i i
      rcases getPort_cases s i with ⟨p, -, hg⟩ | ⟨-, hg⟩ <;> rw [hg]
      · have hk := hard i p rfl hg
        simp only
        repeat' (first | rfl | (rw [unspec_snd]; exact writeCharTo_user hk) | split)
  case flush a =>
    cases a <;> simp only [step, Ports.forceOutput]
    · rw [unspec_snd]; exact fflush_user
    · rename_i i
      rcases getPort_cases s i with ⟨p, -, hg⟩ | ⟨-, hg⟩ <;> rw [hg]
      · have hk := hard i p rfl hg
        simp only
        repeat' (first | rfl | exact absurd (by assumption) hk | (rw [unspec_snd]; exact fflush_user) | split)
  case getOutput a => cases a <;> simp only [step, getOutputString]; repeat' (first | rfl | split)
  case closeIn a =>
    cases a <;> simp only [step, closeInputPort]
    rename_i i
    rcases getPort_cases s i with ⟨p, -, hg⟩ | ⟨-, hg⟩ <;> rw [hg]
    · have hk := hard i p rfl hg
      simp only
      repeat' (first | rfl | exact closePort_user hk | split)
  case closeOut a =>
    cases a <;> simp only [step, closeOutputPort]
    rename_i i
    rcases getPort_cases s i with ⟨p, -, hg⟩ | ⟨-, hg⟩ <;> rw [hg]
    · have hk := hard i p rfl hg
      simp only
      repeat' (first | rfl | exact closePort_user hk | split)
  case isIn a => cases a <;> simp only [step, isInputPort]; repeat' (first | rfl | split)
  case isOut a => cases a <;> simp only [step, isOutputPort]; repeat' (first | rfl | split)
  case current => rfl
  case setCurrent c a =>
    cases a <;> simp only [step, setCurrent]
    repeat' (first | rfl | (cases c <;> rfl) | split)

theorem fput_ports {W : World σ} {s : PS σ} {k : Nat} {bs : Bytes} : (fput W s k bs).2.ports = s.ports := by
  unfold fput
  rcases getStream_cases s k with ⟨f, -, -, h⟩ | ⟨-, h⟩ <;> rw [h] <;> rfl

theorem fflush_ports {s : PS σ} {k : Nat} : (fflush s k).2.ports = s.ports := by
  unfold fflush
  rcases getStream_cases s k with ⟨f, -, -, h⟩ | ⟨-, h⟩ <;> rw [h] <;> rfl

theorem fclose_ports {s : PS σ} {k : Nat} : (fclose s k).2.ports = s.ports := by
  unfold fclose
  rcases getStream_cases s k with ⟨f, -, -, h⟩ | ⟨-, h⟩ <;> rw [h] <;> rfl

/-- How many ports there are. -/
def portCount (s : PS σ) : Nat := s.ports.length

theorem setPort_count {s : PS σ} {i : Nat} {p : PortRec} : portCount (setPort s i p) = portCount s := by simp [portCount, setPort]

theorem callProc_count' {W : World σ} {s s' : PS σ} {f : Obj} {args : List Obj} {r : Res (Option Obj)}
    (h : callProc W s f args = (r, s')) : portCount s' = portCount s := by
  have := (callProc_ports (W := W) s f args).1; rw [h] at this; exact congrArg List.length this

theorem readCharFrom_count {W : World σ} {s : PS σ} {i : Nat} {p : PortRec} : portCount (readCharFrom W s i p).2 = portCount s := by
  unfold readCharFrom
  repeat' (first | rfl | exact setPort_count | exact callProc_count' (by assumption) | split)

theorem writeCharTo_count {W : World σ} {s : PS σ} {i : Nat} {p : PortRec} {b : UInt8} : portCount (writeCharTo W s i p b).2 = portCount s := by
  have ib : ∀ r, portCount (intoBuffer s i p r).2 = portCount s := fun r => by cases r <;> first | rfl | exact setPort_count
  unfold writeCharTo
  repeat' (first | rfl | exact ib _ | exact congrArg List.length fput_ports | exact callProc_count' (by assumption) | split)

theorem writeStringTo_count {W : World σ} {s : PS σ} {i : Nat} {p : PortRec} {b : Bytes} : portCount (writeStringTo W s i p b).2 = portCount s := by
  have ib : ∀ r, portCount (intoBuffer s i p r).2 = portCount s := fun r => by cases r <;> first | rfl | exact setPort_count
  unfold writeStringTo
  repeat' (first | rfl | exact ib _ | exact congrArg List.length fput_ports | split)

theorem closePort_count {W : World σ} {s : PS σ} {i : Nat} {p : PortRec} : portCount (closePort W s i p).2 = portCount s := by
  have fc : ∀ (k : Nat) (r : Res Unit) (s' : PS σ), fclose s k = (r, s') → portCount s' = portCount s := fun k r s' h => by
    have := fclose_ports (s := s) (k := k); rw [h] at this; exact congrArg List.length this
  have mark : ∀ (s : PS σ) (q : PortRec), portCount (markClosed s i q) = portCount s := fun s q => setPort_count
  unfold closePort
  repeat' (first | rfl | exact mark _ _ | exact (mark _ _).trans (callProc_count' (by assumption)) | exact callProc_count' (by assumption) |
    exact (mark _ _).trans (fc _ _ _ (by assumption)) | exact fc _ _ _ (by assumption) | split)

/-- Only `make-soft-port` makes a soft port. -/
theorem step_hard {W : World σ} {s : PS σ} {o : Op} (ho : ∀ ps m, o ≠ .soft ps m) {j : Nat} {q : PortRec} (hj : s.ports[j]? = none)
    (hq : (step W s o).2.ports[j]? = some q) : q.kind ≠ .soft := by
  have same : portCount (step W s o).2 = portCount s → q.kind ≠ .soft := fun h => by
    have h1 := (List.getElem?_eq_some_iff.mp hq).1
    have h2 := List.getElem?_eq_none_iff.mp hj
    simp only [portCount] at h
    omega
  have new : ∀ r : PortRec, r.kind ≠ .soft → (s.ports ++ [r])[j]? = some q → q.kind ≠ .soft := fun r hr h => by
    rw [List.getElem?_append_right (List.getElem?_eq_none_iff.mp hj)] at h
    cases hd : j - s.ports.length with
    | zero => rw [hd] at h; cases h; exact hr
    | succ n => rw [hd] at h; simp at h
  have rc : ∀ (i : Nat) (p : PortRec) (r : Res (Option UInt8)) (s' : PS σ), readCharFrom W s i p = (r, s') → portCount s' = portCount s :=
    fun i p r s' h => by have := readCharFrom_count (W := W) (s := s) (i := i) (p := p); rw [h] at this; exact this
  cases o
  case soft ps m => exact absurd rfl (ho ps m)
  case openIn =>
    simp only [step, openInputFile] at hq
    split at hq
    · rw [hj] at hq; cases hq
    · exact new _ (by simp [blank]) hq
  case openOut =>
    simp only [step, openOutputFile] at hq
    split at hq
    · exact new _ (by simp [blank]) hq
    · rw [hj] at hq; cases hq
  case openInStr => exact new _ (by simp [blank]) hq
  case openOutStr => exact new _ (by simp [blank]) hq
  all_goals apply same
  case readChar a =>
    cases a <;> simp only [step, Ports.readChar]
    repeat' (first | rfl | exact rc _ _ _ _ (by assumption) | split)
  case peekChar a => cases a <;> simp only [step, Ports.peekChar]; repeat' (first | rfl | split)
  case read a => cases a <;> simp only [step, Ports.read]; repeat' (first | rfl | exact setPort_count | split)
  case ready a => cases a <;> simp only [step, Ports.charReady]; repeat' (first | rfl | split)
  case writeChar b a =>
    cases a <;> simp only [step, Ports.writeChar]
    all_goals repeat' (first | rfl | (rw [unspec_snd]; exact congrArg List.length fput_ports) | (rw [unspec_snd]; exact writeCharTo_count) | split)
  case print m d a =>
    cases a <;> simp only [step, Ports.print]
    all_goals repeat' (first | rfl | (rw [unspec_snd]; exact congrArg List.length fput_ports) | (rw [unspec_snd]; exact writeStringTo_count) | split)
  case newline a =>
    cases a <;> simp only [step, Ports.newline]
    all_goals repeat' (first | rfl | (rw [unspec_snd]; exact congrArg List.length fput_ports) | (rw [unspec_snd]; exact writeCharTo_count) | split)
  case flush a =>
    cases a <;> simp only [step, Ports.forceOutput]
    all_goals repeat' (first | rfl | (rw [unspec_snd]; exact congrArg List.length fflush_ports) | exact callProc_count' (by assumption) | split)
  case getOutput a => cases a <;> simp only [step, getOutputString]; repeat' (first | rfl | split)
  case closeIn a => cases a <;> simp only [step, closeInputPort]; repeat' (first | rfl | exact closePort_count | split)
  case closeOut a => cases a <;> simp only [step, closeOutputPort]; repeat' (first | rfl | exact closePort_count | split)
  case isIn a => cases a <;> simp only [step, isInputPort]; repeat' (first | rfl | split)
  case isOut a => cases a <;> simp only [step, isOutputPort]; repeat' (first | rfl | split)
  case current => rfl
  case setCurrent c a =>
    cases a <;> simp only [step, setCurrent]
    repeat' (first | rfl | (cases c <;> rfl) | split)

/-- The only soft port is `i`. -/
structure OneSoft (s : PS σ) (i : Nat) (p : PortRec) : Prop where
  port : s.ports[i]? = some p
  others : ∀ (j : Nat) (q : PortRec), j ≠ i → s.ports[j]? = some q → q.kind ≠ .soft

theorem OneSoft.others_step {W : World σ} {s : PS σ} {i : Nat} {p : PortRec} (h : OneSoft s i p) {o : Op} (ho : ∀ ps m, o ≠ .soft ps m) :
    ∀ (j : Nat) (q : PortRec), j ≠ i → (step W s o).2.ports[j]? = some q → q.kind ≠ .soft := by
  intro j q hj hq
  cases h0 : s.ports[j]? with
  | none => exact step_hard ho h0 hq
  | some r =>
    obtain ⟨r', h1, h2, -⟩ := (step_evolves (W := W) s o).ports j r h0
    rw [hq] at h1; cases h1
    rw [h2]; exact h.others j r hj h0

/-- An operation that is not on the soft port. -/
theorem OneSoft.elsewhere {W : World σ} {s : PS σ} {i : Nat} {p : PortRec} (h : OneSoft s i p) {o : Op} (ho : ∀ ps m, o ≠ .soft ps m)
    (ha : addressee o ≠ some i) : OneSoft (step W s o).2 i p ∧ (step W s o).2.user = s.user := by
  refine ⟨⟨(not_addressed ha s).port i p (by simp) h.port, h.others_step ho⟩, ?_⟩
  by_cases hs : ∃ c a, o = .setCurrent c a
  · obtain ⟨c, a, rfl⟩ := hs
    cases a <;> simp only [step, setCurrent]
    repeat' (first | rfl | (cases c <;> rfl) | split)
  · refine step_user fun j q hj hq => h.others j q ?_ hq
    rintro rfl
    apply ha
    cases o <;> simp only [Op.arg] at hj <;> (first | (exact absurd hj (by simp)) | subst hj) <;> first | rfl | exact absurd ⟨_, _, rfl⟩ hs

theorem callProc_callable {W : World σ} {s : PS σ} {f : Obj} {args : List Obj} (hf : Callable f) :
    callProc W s f args = ((W.call f args s.user).1, { s with user := (W.call f args s.user).2 }) := by
  obtain ⟨a, t⟩ := f
  obtain ⟨n, h | h⟩ := hf <;> simp only at h <;> subst h <;> rfl

end Pscm
