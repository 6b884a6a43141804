import Verif.ErrPort
import Verif.ErrPortSpec
import Verif.PortsProps4
/-!
# Lemmas for C144
-/
namespace Pscm.Ports
open Rd (Bytes asc)
open Port (In Out)
variable {σ : Type} {W : World σ}

/-! ## The message has no NUL -/

def NoNul (b : Option Thr.Buf) : Prop := ∀ x, b = some x → (0 : UInt8) ∉ x.text

theorem put_noNul {b : Option Thr.Buf} {t : Bytes} (h : NoNul b) (ht : (0 : UInt8) ∉ t) : NoNul (Thr.put b t) := by
  intro x hx
  cases b with
  | none => simp [Thr.put] at hx
  | some b =>
    simp only [Thr.put] at hx
    split at hx
    · cases hx
      simp only [List.mem_append, not_or]
      exact ⟨h b rfl, fun hm => ht (List.mem_of_mem_take hm)⟩
    · cases hx

theorem message_noNul {prog : Option Bytes} {k : Thr.Key} {a : Thr.Args} {m : Bytes} (h : Thr.message prog k a = some m) : (0 : UInt8) ∉ m := by
  have hn : (0 : UInt8) ∉ (asc ": uncaught throw to ") := by decide +kernel
  have hk : (0 : UInt8) ∉ Thr.keyText k := by
    cases k with
    | sym n => simp only [Thr.keyText, List.mem_cons, not_or]; exact ⟨by decide, cstr_noNul n⟩
    | other => decide +kernel
  have ha : (0 : UInt8) ∉ Thr.argText a := by
    cases a with
    | null => decide +kernel
    | string s => exact cstr_noNul s
    | other => decide +kernel
  simp only [Thr.message, Option.map_eq_some_iff] at h
  obtain ⟨x, hx, rfl⟩ := h
  refine put_noNul (put_noNul (put_noNul (put_noNul (put_noNul (fun y hy => ?_) ?_) hk) (by decide +kernel)) ha) (by decide) x hx
  · cases hy; simp
  · rw [List.mem_append, not_or]
    exact ⟨cstr_noNul _, hn⟩

theorem cstr_id {t : Bytes} (h : (0 : UInt8) ∉ t) : cstr t = t := Rd.cstr_self h

theorem print_str (F : Rd.FloIO) {t : Bytes} (h : (0 : UInt8) ∉ t) : Rd.print F false (.str t) = t := by
  show cstr t = t
  exact cstr_id h

/-! ## Writing -/

theorem Live.get {s : PS σ} {k : Nat} (h : Live s k) : ∃ f, getStream s k = .ok f ∧ s.streams[k]? = some f ∧ f.isOpen = true := by
  obtain ⟨f, h1, h2⟩ := h
  exact ⟨f, by simp [getStream, h1, h2], h1, h2⟩

theorem drain_live {s : PS σ} {k n k' : Nat} {f g : Stream} (hf : s.streams[k]? = some f) (hg : g.isOpen = f.isOpen) (h : Live s k') : Live (drain s k g n) k' := by
  obtain ⟨f', h1, h2⟩ := h
  by_cases hk : k = k'
  · subst hk
    rw [hf] at h1; cases h1
    exact ⟨_, List.getElem?_set_self (List.getElem?_eq_some_iff.mp hf).1, by simp [hg, h2]⟩
  · exact ⟨f', by simp [drain, List.getElem?_set_ne hk, h1], h2⟩

/-- What writing leaves alone. -/
structure Keeps (s s' : PS σ) : Prop where
  live : ∀ k, Live s k → Live s' k
  err : s'.curErr = s.curErr
  zero : ∀ p, s.ports[0]? = some p → p.kind = .fileOut → s'.ports[0]? = some p

theorem Keeps.trans {s s' s'' : PS σ} (h : Keeps s s') (h' : Keeps s' s'') : Keeps s s'' :=
  ⟨fun k hk => h'.live k (h.live k hk), h'.err.trans h.err, fun p hp hk => h'.zero p (h.zero p hp hk) hk⟩

theorem fput_live {s : PS σ} {k : Nat} (h : Live s k) (t : Bytes) :
    ∃ s', fput W s k t = (.ok (), s') ∧ s'.ports = s.ports ∧ Keeps s s' := by
  obtain ⟨f, h1, h2, -⟩ := h.get
  exact ⟨drain s k { f with pend := f.pend ++ t } (W.spill (f.pend ++ t)), by simp only [fput, h1], rfl,
    ⟨fun k' hk' => drain_live h2 rfl hk', rfl, fun p hp _ => hp⟩⟩

theorem fflush_live {s : PS σ} {k : Nat} (h : Live s k) : ∃ s', fflush s k = (.ok (), s') ∧ s'.ports = s.ports ∧ Keeps s s' := by
  obtain ⟨f, h1, h2, -⟩ := h.get
  exact ⟨drain s k f f.pend.length, by simp only [fflush, h1], rfl, ⟨fun k' hk' => drain_live h2 rfl hk', rfl, fun p hp _ => hp⟩⟩

/-- The port is an output port that can take `b` more bytes. -/
def Fit (s : PS σ) (i b : Nat) : Prop :=
  ∃ p, s.ports[i]? = some p ∧ p.closed = false ∧ p.isInput = false ∧
    ((p.kind = .fileOut ∧ ∃ k, p.file = some k ∧ Live s k) ∨ (p.kind = .strOut ∧ ∃ w, Holds p.out w ∧ w.length + b + 1 < 2 ^ 30))

theorem Fit.of_ports {s s' : PS σ} {i b : Nat} (h : Fit s i b) (hp : s'.ports = s.ports) (hk : Keeps s s') : Fit s' i b := by
  obtain ⟨p, h1, h2, h3, h4⟩ := h
  refine ⟨p, by rw [hp]; exact h1, h2, h3, ?_⟩
  rcases h4 with ⟨h4, k, h5, h6⟩ | h4
  · exact .inl ⟨h4, k, h5, hk.live k h6⟩
  · exact .inr h4

theorem Fit.less {s : PS σ} {i a b : Nat} (h : Fit s i (a + b)) : Fit s i b := by
  obtain ⟨p, h1, h2, h3, h4⟩ := h
  refine ⟨p, h1, h2, h3, ?_⟩
  rcases h4 with h4 | ⟨h4, w, h5, h6⟩
  · exact .inl h4
  · exact .inr ⟨h4, w, h5, by omega⟩

theorem put_fit {s : PS σ} {i b : Nat} {t : Bytes} (ht : (0 : UInt8) ∉ t) (h : Fit s i (t.length + b)) :
    ∃ s', putErr W s i t = (.ok (), s') ∧ step W s (.print false (.str t) (.port i)) = (.ok .unspecified, s') ∧ Fit s' i b ∧ Keeps s s' := by
  have hl := h.less
  obtain ⟨p, h1, h2, h3, h4⟩ := h
  have gp := getPort_eq h1
  have hlt := (List.getElem?_eq_some_iff.mp h1).1
  rcases h4 with ⟨h4, k, h5, h6⟩ | ⟨h4, w, h5, h6⟩
  · obtain ⟨s', e, hp, hk⟩ := fput_live (W := W) h6 t
    refine ⟨s', ?_, ?_, hl.of_ports hp hk, hk⟩
    · simp [putErr, gp, h2, h4, h5, cstr_id ht, e]
    · simp [step, print, gp, h3, writeStringTo, h2, h4, h5, print_str _ ht, cstr_id ht, e, unspec]
  · obtain ⟨q, e, hq⟩ := writeString_holds h5 ht (by omega)
    refine ⟨setPort s i { p with out := q }, ?_, ?_, ⟨{ p with out := q }, by simp [setPort, hlt], h2, h3, .inr ⟨h4, _, hq, ?_⟩⟩, ⟨fun k hk => hk, rfl, ?_⟩⟩
    · simp [putErr, gp, h2, h4, e, intoBuffer]
    · simp [step, print, gp, h3, writeStringTo, h2, h4, print_str _ ht, e, intoBuffer, unspec]
    · rw [List.length_append]; omega
    · intro r hr hk
      by_cases hi : i = 0
      · subst hi
        rw [h1] at hr; cases hr
        rw [h4] at hk; cases hk
      · simp [setPort, List.getElem?_set_ne hi, hr]

theorem flush_fit {s : PS σ} {i b : Nat} (h : Fit s i b) :
    ∃ s', flushErr s i = (.ok (), s') ∧ step W s (.flush (.port i)) = (.ok .unspecified, s') ∧ Fit s' i b ∧ Keeps s s' := by
  have hl := h
  obtain ⟨p, h1, h2, h3, h4⟩ := h
  have gp := getPort_eq h1
  rcases h4 with ⟨h4, k, h5, h6⟩ | ⟨h4, w, h5, h6⟩
  · obtain ⟨s', e, hp, hk⟩ := fflush_live h6
    refine ⟨s', ?_, ?_, hl.of_ports hp hk, hk⟩
    · simp [flushErr, gp, h4, h5, e]
    · simp [step, forceOutput, gp, h3, h2, h4, h5, e, unspec]
  · exact ⟨s, by simp [flushErr, gp, h4], by simp [step, forceOutput, gp, h3, h2, h4], hl, ⟨fun k hk => hk, rfl, fun p hp _ => hp⟩⟩

theorem StdErr.keeps {s s' : PS σ} (h : StdErr s) (hk : Keeps s s') : StdErr s' := by
  obtain ⟨p, h1, h2, h3, h4, h5, h6⟩ := h
  exact ⟨p, hk.zero p h1 h2, h2, h3, h4, h5, hk.live _ h6⟩

theorem err_std {s : PS σ} {t : Bytes} (h : StdErr s) :
    ∃ s', fput W s stderrK (cstr t) = (.ok (), s') ∧ step W s (.print false (.str t) (.port 0)) = (.ok .unspecified, s') ∧ s'.ports = s.ports ∧ Keeps s s' := by
  obtain ⟨p, h1, h2, h3, h4, h5, h6⟩ := h
  have gp := getPort_eq h1
  obtain ⟨s', e, hp, hk⟩ := fput_live (W := W) h6 (cstr t)
  refine ⟨s', e, ?_, hp, hk⟩
  have e0 : Rd.print W.flo false (.str t) = cstr t := rfl
  simp [step, print, gp, h3, writeStringTo, h4, h2, h5, e0, cstr_idem, e, unspec]

end Pscm.Ports

namespace Pscm
open Ports
open Rd (Bytes asc)
open Port (In Out)
variable {σ : Type}

theorem runs_next {W : World σ} {s t s' : PS σ} {o : Op} {os : List Op} {x : Ans} {as : List (Option Ans)} (h : step W s o = (.ok x, t))
    (h' : runs W t os = some (as, s')) : runs W s (o :: os) = some (some x :: as, s') := runs_ok (by rw [h]) (by rw [h]; exact h')

theorem report_runs {W : World σ} {s : PS σ} {prog : Option Bytes} {k : Thr.Key} {a : Thr.Args} {m : Bytes} (hm : Thr.message prog k a = some m) (stack : Option Bytes)
    (hfit : Fit s s.curErr (reportText m stack).length) (hstd : stack ≠ none → StdErr s) :
    ∃ s' as, report W s prog k a stack = (.ok (), s') ∧ runs W s (reporting s.curErr m stack) = some (as, s') ∧ Fit s' s.curErr 0 ∧ s'.curErr = s.curErr := by
  have h0 := message_noNul hm
  cases stack with
  | none =>
    obtain ⟨s1, p1, q1, f1, k1⟩ := put_fit (W := W) (b := 0) h0 (by simpa [reportText] using hfit)
    obtain ⟨s2, p2, q2, f2, k2⟩ := flush_fit (W := W) f1
    refine ⟨s2, _, ?_, runs_next q1 (runs_next q2 rfl), f2, (k1.trans k2).err⟩
    simp only [report, hm, current, p1, thenDo, p2]
  | some t =>
    obtain ⟨s1, p1, q1, f1, k1⟩ := put_fit (W := W) (b := stackHead.length + (stackFoot.length + 0)) h0 (by simpa [reportText] using hfit)
    obtain ⟨s2, p2, q2, f2, k2⟩ := flush_fit (W := W) f1
    obtain ⟨s3, p3, q3, f3, k3⟩ := put_fit (W := W) (by decide +kernel) f2
    obtain ⟨s4, p4, q4, e4, k4⟩ := err_std (W := W) (t := t) ((hstd (by simp)).keeps ((k1.trans k2).trans k3))
    have f4 := f3.of_ports e4 k4
    obtain ⟨s5, p5, q5, f5, k5⟩ := put_fit (W := W) (by decide +kernel) f4
    obtain ⟨s6, p6, q6, f6, k6⟩ := flush_fit (W := W) f5
    refine ⟨s6, _, ?_, runs_next q1 (runs_next q2 (runs_next q3 (runs_next q4 (runs_next q5 (runs_next q6 rfl))))), f6,
      (((((k1.trans k2).trans k3).trans k4).trans k5).trans k6).err⟩
    have p3' : putErr W s2 s.curErr (asc "\n=== Evaluation Call Stack ===\n") = (.ok (), s3) := p3
    have p5' : putErr W s4 s.curErr (asc "=== End of Call Stack ===\n") = (.ok (), s5) := p5
    simp only [report, hm, current, p1, thenDo, p2, p3', p4, p5', p6]

theorem uncaught_runs {W : World σ} {s : PS σ} {k : Thr.Key} {a : Thr.Args} {m : Bytes} (hm : Thr.message none k a = some m) (stack : Option Bytes)
    (hfit : Fit s s.curErr (reportText m stack).length) (hstd : stack ≠ none → StdErr s) :
    ∃ s' as, uncaughtThrow W s k a stack = (.ok (), s') ∧ runs W s (reporting s.curErr m stack ++ [.flush (.port s.curErr)]) = some (as, s') := by
  obtain ⟨s1, as, h1, h2, h3, h4⟩ := report_runs (W := W) hm stack hfit hstd
  obtain ⟨s2, -, q2, -, -⟩ := flush_fit (W := W) h3
  refine ⟨s2, _, ?_, runs_trans _ _ _ _ _ _ _ h2 (runs_next q2 rfl)⟩
  have q2' : forceOutput W s1 (.port s.curErr) = (.ok .unspecified, s2) := q2
  simp only [uncaughtThrow, h1, thenDo, current, h4, q2']

theorem sent_reporting (F : Rd.FloIO) {i : Nat} {m : Bytes} (hm : (0 : UInt8) ∉ m) {stack : Option Bytes} (hi : i ≠ 0) (more : List Op) :
    sentTo F i (reporting i m stack ++ more) = reportText m stack ++ sentTo F i more := by
  have e1 : Rd.print F false (.str stackHead) = stackHead := print_str F (by decide +kernel)
  have e2 : Rd.print F false (.str stackFoot) = stackFoot := print_str F (by decide +kernel)
  cases stack with
  | none => simp [reporting, sentTo, reportText, print_str F hm]
  | some t => simp [reporting, sentTo, reportText, print_str F hm, e1, e2, Ne.symm hi]

theorem sentTo_append (F : Rd.FloIO) (i : Nat) : ∀ (a b : List Op), .closeOut (.port i) ∉ a → sentTo F i (a ++ b) = sentTo F i a ++ sentTo F i b
  | [], _, _ => by simp [sentTo]
  | o :: os, b, h => by
    have ho : o ≠ .closeOut (.port i) := fun e => h (by rw [e]; exact List.mem_cons_self ..)
    rw [List.cons_append, sentTo_cons F i o (os ++ b) ho, sentTo_cons F i o os ho, sentTo_append F i os b fun e => h (List.mem_cons_of_mem _ e), List.append_assoc]

theorem reporting_noNul {F : Rd.FloIO} {i : Nat} {m : Bytes} (hm : (0 : UInt8) ∉ m) {stack : Option Bytes} (hi : i ≠ 0) {more : List Op}
    (hmore : ∀ w d, Op.print w d (.port i) ∉ more) {w : Bool} {d : Rd.D} (h : Op.print w d (.port i) ∈ reporting i m stack ++ more) : (0 : UInt8) ∉ Rd.print F w d := by
  have e1 : (0 : UInt8) ∉ Rd.print F false (.str stackHead) := by rw [print_str F (by decide +kernel)]; decide +kernel
  have e2 : (0 : UInt8) ∉ Rd.print F false (.str stackFoot) := by rw [print_str F (by decide +kernel)]; decide +kernel
  have e0 : (0 : UInt8) ∉ Rd.print F false (.str m) := by rw [print_str F hm]; exact hm
  rw [List.mem_append] at h
  rcases h with h | h
  · cases stack with
    | none =>
      simp only [reporting, List.mem_cons, List.not_mem_nil, or_false, Op.print.injEq, reduceCtorEq] at h
      obtain ⟨rfl, rfl, -⟩ := h
      exact e0
    | some t =>
      simp only [reporting, List.mem_cons, List.not_mem_nil, or_false, Op.print.injEq, reduceCtorEq, false_or, Arg.port.injEq] at h
      rcases h with ⟨rfl, rfl, -⟩ | ⟨rfl, rfl, -⟩ | ⟨-, -, h⟩ | ⟨rfl, rfl, -⟩
      · exact e0
      · exact e1
      · exact absurd h hi
      · exact e2
  · exact absurd h (hmore w d)

theorem writing_runs {W : World σ} {name : Bytes} {i : Nat} : ∀ (ops : List Op) (s s' : PS σ) (w : Bytes) (as : List (Option Ans)) (k : Nat) (p : PortRec) (f : Ports.Stream),
    (∀ n, .openOut n ∈ ops → cstr n ≠ name) → (∀ m d, .print m d (.port i) ∈ ops → (0 : UInt8) ∉ Rd.print W.flo m d) → .closeOut (.port i) ∉ ops →
    runs W s ops = some (as, s') → Around name i s → Writing name i k p f s w → ∃ f', Writing name i k p f' s' (w ++ sentTo W.flo i ops)
  | [], s, s', w, as, k, p, f, _, _, _, h, _, hw => by
    rw [runs] at h; cases h
    exact ⟨f, by simpa [sentTo] using hw⟩
  | o :: os, s, s', w, as, k, p, f, hn, h0, hc, h, a, hw => by
    obtain ⟨x, as', -, h2, -⟩ := runs_cons h
    rcases writing_step (W := W) (o := o) a hw (fun n e => hn n (by rw [e]; exact List.mem_cons_self ..))
      (fun m d e => h0 m d (by rw [e]; exact List.mem_cons_self ..)) with ⟨hne, a', ⟨f', hw'⟩, -⟩ | ⟨rfl, -, -⟩
    · rw [sentTo_cons _ _ _ _ hne, ← List.append_assoc]
      exact writing_runs os _ s' _ as' k p f' (fun n e => hn n (List.mem_cons_of_mem _ e)) (fun m d e => h0 m d (List.mem_cons_of_mem _ e))
        (fun e => hc (List.mem_cons_of_mem _ e)) h2 a' hw'
    · exact absurd (List.mem_cons_self ..) hc

theorem collects_runs {W : World σ} {i : Nat} : ∀ (ops : List Op) (s s' : PS σ) (w : Bytes) (as : List (Option Ans)) (p : PortRec),
    (∀ m d, .print m d (.port i) ∈ ops → (0 : UInt8) ∉ Rd.print W.flo m d) → w.length + (sentTo W.flo i ops).length + 1 < 2 ^ 30 → .closeOut (.port i) ∉ ops →
    runs W s ops = some (as, s') → Collects s i w p → ∃ q, Collects s' i (w ++ sentTo W.flo i ops) q
  | [], s, s', w, as, p, _, _, _, h, hw => by
    rw [runs] at h; cases h
    exact ⟨p, by simpa [sentTo] using hw⟩
  | o :: os, s, s', w, as, p, h0, hb, hc, h, hw => by
    obtain ⟨x, as', -, h2, -⟩ := runs_cons h
    have hne : o ≠ .closeOut (.port i) := fun e => hc (by rw [e]; exact List.mem_cons_self ..)
    rw [sentTo_cons _ _ _ _ hne] at hb ⊢
    rw [List.length_append] at hb
    have : ∃ q, Collects (step W s o).2 i (w ++ sentTo W.flo i [o]) q := by
      by_cases ho : addressee o = some i
      · exact (collects_step hw ho (fun m d e => h0 m d (by rw [e]; exact List.mem_cons_self ..)) (by omega)).1 hne
      · rw [sentTo_elsewhere ho, List.append_nil]
        exact ⟨p, (not_addressed ho s).port i p (by simp) hw.port, hw.kind, hw.dir, hw.file, hw.opened, hw.data⟩
    obtain ⟨q, hq⟩ := this
    rw [← List.append_assoc]
    exact collects_runs os _ s' _ as' q (fun m d e => h0 m d (List.mem_cons_of_mem _ e)) (by rw [List.length_append]; omega)
      (fun e => hc (List.mem_cons_of_mem _ e)) h2 hq

end Pscm
