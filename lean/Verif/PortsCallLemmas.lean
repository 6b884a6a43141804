import Verif.PortsCall
import Verif.PortsProps2
/-!
# Lemmas for C108 and C109
-/
namespace Pscm
open Ports
open Rd (Bytes)
open Port (In Out)

variable {σ : Type}

/-- The port an operation is given. -/
def handle : Op → Option Nat
  | .setCurrent _ (.port i) => some i
  | o => addressee o

theorem handle_arg {o : Op} {i : Nat} (h : o.arg = .port i) : handle o = some i := by
  cases o <;> simp only [Op.arg] at h <;> (first | (exact absurd h (by simp)) | subst h) <;> rfl

theorem handled {W : World σ} {s s' : PS σ} {o : Op} {i : Nat} {x : Res Ans} (hx : OkErr x) (h : step W s o = (x, s')) (ho : o.arg = .port i) :
    i < s.ports.length := by
  refine Decidable.byContradiction fun hn => ?_
  have hg : getPort s i = .ub := by simp [getPort, List.getElem?_eq_none (Nat.le_of_not_lt hn)]
  have : (step W s o).1 = .ub := by
    cases o <;> simp only [Op.arg] at ho <;> (first | (exact absurd ho (by simp)) | subst ho) <;>
      simp [step, Ports.readChar, Ports.peekChar, Ports.read, Ports.charReady, Ports.writeChar, Ports.print, Ports.newline, forceOutput,
        getOutputString, closeInputPort, closeOutputPort, isInputPort, isOutputPort, setCurrent, hg]
  rw [h] at this
  rcases hx with ⟨a, e⟩ | ⟨a, e⟩ <;> rw [e] at this <;> cases this

theorem runs_safe {W : World σ} (hW : Tame W) : ∀ (ops : List Op) (s s' : PS σ) (as : List (Option Ans)) (n : Nat), Tidy s → Safe n s →
    .closeOut (.port 2) ∉ ops → n + (ops.map (volume W.flo)).sum + 1 < 2 ^ 30 → runs W s ops = some (as, s') →
    Tidy s' ∧ Safe (n + (ops.map (volume W.flo)).sum) s' := by
  intro ops
  induction ops with
  | nil => intro s s' as n t h _ _ hr; rw [runs] at hr; cases hr; exact ⟨t, h⟩
  | cons o os ih =>
    intro s s' as n t h hc hb hr
    simp only [List.map_cons, List.sum_cons] at hb ⊢
    have hok : OkErr (step W s o).1 := by
      rw [runs] at hr
      split at hr
      · rename_i e; rw [e]; exact .inl ⟨_, rfl⟩
      · rename_i e; rw [e]; exact .inr ⟨_, rfl⟩
      · cases hr
    obtain ⟨x, as', -, h2, -⟩ := runs_cons hr
    have hg := step_good hW t h (o := o) (by rintro rfl; exact hc (List.mem_cons_self ..))
      (fun i hi => handled (s' := (step W s o).2) hok rfl hi) (by omega)
    have t' : Tidy (step W s o).2 := (step_frame s o).tidy t
    have := ih _ s' as' _ t' hg.2 (fun h => hc (List.mem_cons_of_mem _ h)) (by omega) h2
    rw [Nat.add_assoc] at this
    exact this

/-- The port `i` is an input port on a file, closed or with an open stream. -/
structure Reading (s : PS σ) (i : Nat) (p : PortRec) : Prop where
  port : s.ports[i]? = some p
  kind : p.kind = .fileIn
  dir : p.isInput = true
  live : p.closed = true ∨ ∃ k f, p.file = some k ∧ k ≠ stdoutK ∧ s.streams[k]? = some f ∧ f.isOpen = true

theorem reading_step {W : World σ} {s : PS σ} {i : Nat} {p : PortRec} (t : Tidy s) (h : Reading s i p) (o : Op) : ∃ q, Reading (step W s o).2 i q := by
  have gp := getPort_eq h.port
  have hlt := (List.getElem?_eq_some_iff.mp h.port).1
  by_cases ho : addressee o = some i
  · by_cases hc : p.closed = true
    · rw [closed_step h.port hc ho]; exact ⟨p, h⟩
    · have hc' : p.closed = false := by simpa using hc
      obtain ⟨k, f, h1, h2, h3, h4⟩ := h.live.resolve_left hc
      have hg : getStream s k = .ok f := by simp [Ports.getStream, h3, h4]
      have hk := (List.getElem?_eq_some_iff.mp h3).1
      unfold addressee at ho
      split at ho <;> cases ho
      case h_1 =>
        refine ⟨p, ?_, h.kind, h.dir, .inr ⟨k, { f with inp := (Port.readChar f.inp).2 }, h1, h2, ?_, h4⟩⟩
        all_goals simp [step, Ports.readChar, gp, h.kind, h.dir, readCharFrom, hc', h1, hg, h.port, hk]
      case h_3 =>
        refine ⟨p, ?_, h.kind, h.dir, .inr ⟨k, { f with inp := (Port.readExpr W.flo f.inp).2 }, h1, h2, ?_, h4⟩⟩
        all_goals simp [step, Ports.read, gp, h.kind, h.dir, hc', h1, hg, h.port, hk]
      case h_10 =>
        refine ⟨{ p with closed := true, file := none }, ?_, h.kind, h.dir, .inl rfl⟩
        simp [step, closeInputPort, closePort, gp, h.kind, h.dir, hc', h1, fclose, hg, markClosed, setPort, drain, hlt]
      all_goals
        refine ⟨p, ?_⟩
        simpa [step, Ports.peekChar, Ports.charReady, peekCharFrom, Ports.writeChar, Ports.print, Ports.newline, forceOutput, getOutputString,
          closeOutputPort, isInputPort, isOutputPort, gp, h.kind, h.dir, hc', h1, hg] using h
  · have hf := not_addressed (W := W) ho s
    refine ⟨p, hf.port i p (by simp) h.port, h.kind, h.dir, ?_⟩
    rcases h.live with hc | ⟨k, f, h1, h2, h3, h4⟩
    · exact .inl hc
    · exact .inr ⟨k, f, h1, h2, by rw [hf.stream t i k (by simp) ⟨p, h.port, h1⟩ h2]; exact h3, h4⟩

theorem reading_runs {W : World σ} {i : Nat} : ∀ (ops : List Op) (s s' : PS σ) (as : List (Option Ans)) (p : PortRec), Tidy s → Reading s i p →
    runs W s ops = some (as, s') → ∃ q, Reading s' i q
  | [], _, _, _, p, _, h, e => by rw [runs] at e; cases e; exact ⟨p, h⟩
  | o :: os, s, s', as, p, t, h, e => by
    obtain ⟨a, as', -, h2, -⟩ := runs_cons e
    obtain ⟨q, hq⟩ := reading_step (W := W) t h o
    exact reading_runs os _ s' as' q ((step_frame s o).tidy t) hq h2

end Pscm
