import Verif.PortsFiles
import Verif.PortsEvolve
import Verif.PortsSpec
/-!
# Lemmas about programs that use ports
-/
namespace Pscm
open Ports
open Rd (Bytes)
open Port (In Out)

variable {σ : Type}

theorem tidy_initial (files : Bytes → Option Bytes) (stdin : Bytes) (u : σ) : Tidy (initial files stdin u) := by
  have key : ∀ i k, Owns (initial files stdin u) i k → (i = 0 ∧ k = 2) ∨ (i = 1 ∧ k = 0) ∨ (i = 2 ∧ k = 1) := by
    rintro i k ⟨p, hp, hk⟩
    match i, hp with
    | 0, hp => cases hp; cases hk; simp
    | 1, hp => cases hp; cases hk; simp
    | 2, hp => cases hp; cases hk; simp
    | n + 3, hp => simp [initial] at hp
  refine ⟨?_, ?_, by simp [initial], ?_⟩
  · intro i j k hi hj
    rcases key i k hi with ⟨rfl, rfl⟩ | ⟨rfl, rfl⟩ | ⟨rfl, rfl⟩ <;> rcases key j _ hj with ⟨rfl, h⟩ | ⟨rfl, h⟩ | ⟨rfl, h⟩ <;>
      first | rfl | (exact absurd h (by decide))
  · intro i k hi
    rcases key i k hi with ⟨rfl, rfl⟩ | ⟨rfl, rfl⟩ | ⟨rfl, rfl⟩ <;> simp [initial]
  · intro i hi
    rcases key i _ hi with ⟨rfl, h⟩ | ⟨rfl, h⟩ | ⟨rfl, h⟩ <;> first | rfl | (exact absurd h (by decide))

theorem runs_cons {W : World σ} {s : PS σ} {o : Op} {os : List Op} {as : List (Option Ans)} {s' : PS σ}
    (h : runs W s (o :: os) = some (as, s')) : ∃ a as', as = a :: as' ∧ runs W (step W s o).2 os = some (as', s') ∧
      ((∃ x, a = some x ∧ (step W s o).1 = .ok x) ∨ (∃ e, a = none ∧ (step W s o).1 = .err e)) := by
  rw [runs] at h
  cases hs : step W s o with
  | mk r t =>
    rw [hs] at h
    cases r <;> simp only [Option.map_eq_some_iff, reduceCtorEq] at h
    · obtain ⟨⟨as', s2⟩, h1, h2⟩ := h
      cases h2
      exact ⟨_, as', rfl, h1, .inl ⟨_, rfl, rfl⟩⟩
    · obtain ⟨⟨as', s2⟩, h1, h2⟩ := h
      cases h2
      exact ⟨_, as', rfl, h1, .inr ⟨_, rfl, rfl⟩⟩

theorem runs_ok {W : World σ} {s : PS σ} {o : Op} {os : List Op} {x : Ans} {as : List (Option Ans)} {s' : PS σ}
    (h1 : (step W s o).1 = .ok x) (h2 : runs W (step W s o).2 os = some (as, s')) : runs W s (o :: os) = some (some x :: as, s') := by
  rw [runs]
  cases hs : step W s o with
  | mk r t => rw [hs] at h1 h2; simp only at h1; subst h1; simp only; rw [h2]; rfl

theorem runs_err {W : World σ} {s : PS σ} {o : Op} {os : List Op} {e : Err} {as : List (Option Ans)} {s' : PS σ}
    (h1 : (step W s o).1 = .err e) (h2 : runs W (step W s o).2 os = some (as, s')) : runs W s (o :: os) = some (none :: as, s') := by
  rw [runs]
  cases hs : step W s o with
  | mk r t => rw [hs] at h1 h2; simp only at h1; subst h1; simp only; rw [h2]; rfl

theorem tidy_runs {W : World σ} : ∀ (ops : List Op) (s s' : PS σ) (as : List (Option Ans)), Tidy s → runs W s ops = some (as, s') → Tidy s'
  | [], _, _, _, h, e => by rw [runs] at e; cases e; exact h
  | o :: os, s, s', as, h, e => by
    obtain ⟨a, as', -, h2, -⟩ := runs_cons e
    exact tidy_runs os _ s' as' ((step_frame s o).tidy h) h2

theorem AfterProgram.tidy {W : World σ} {s : PS σ} (h : AfterProgram W s) : Tidy s := by
  obtain ⟨files, stdin, u, before, as, e⟩ := h
  exact tidy_runs before _ _ as (tidy_initial files stdin u) e

theorem addressee_arg {o : Op} {i : Nat} (h : addressee o = some i) : o.arg = .port i ∧ ∀ c a, o ≠ .setCurrent c a := by
  unfold addressee at h
  split at h <;> simp_all [Op.arg]

/-- If an operation does not address the port it may still be `set-current-…-port`, which does not touch it. -/
theorem not_addressed {W : World σ} {o : Op} {i : Nat} (h : addressee o ≠ some i) (s : PS σ) :
    Frame (fun j => j ≠ i) s (step W s o).2 := by
  by_cases ho : o.arg = .port i
  · have : ∃ c, o = .setCurrent c (.port i) := by
      cases o <;> simp only [Op.arg] at ho <;> (try subst ho) <;> simp_all [addressee]
    obtain ⟨c, rfl⟩ := this
    simp only [step, setCurrent]
    rcases getPort_cases s i with ⟨p, hp, hg⟩ | ⟨-, hg⟩ <;> rw [hg]
    · simp only
      split
      · cases c
        · exact Frame.cur s i s.curOut s.curErr
        · exact Frame.cur s s.curIn i s.curErr
        · exact Frame.cur s s.curIn s.curOut i
      · exact .refl _ s
    · exact .refl _ s
  · have hf := step_frame (W := W) s o
    refine ⟨hf.tidy, fun j p hj hp => ?_, fun t j k hj ho' hk => ?_, hf.old⟩
    · simp only [ne_eq, Decidable.not_not] at hj; subst hj
      exact hf.port j p ho hp
    · simp only [ne_eq, Decidable.not_not] at hj; subst hj
      exact hf.stream t j k ho ho' hk

/-- See `c105_interleaving`. -/
theorem interleaving (W : World σ) (s : PS σ) (hs : AfterProgram W s) (i : Nat) (hi : i ≠ 2) (p : PortRec) (hp : s.ports[i]? = some p)
    (hard : p.kind ≠ .soft) (ops : List Op) (as : List (Option Ans)) (s' : PS σ) (h : runs W s ops = some (as, s')) :
    ∃ t, runs W s (opsOn i ops) = some (answersOn i ops as, t) := by
  have key : ∀ (ops : List Op) (s t : PS σ) (p : PortRec) (as : List (Option Ans)), Tidy s → Same i s t p → runs W s ops = some (as, s') →
      ∃ t', runs W t (opsOn i ops) = some (answersOn i ops as, t') := by
    intro ops
    induction ops with
    | nil => intro s t p as _ _ h; rw [runs] at h; cases h; exact ⟨t, rfl⟩
    | cons o os ih =>
      intro s t p as ht hsame h
      obtain ⟨a, as', rfl, h2, h1⟩ := runs_cons h
      by_cases ho : addressee o = some i
      · obtain ⟨ha, hc⟩ := addressee_arg ho
        obtain ⟨e1, q, hq⟩ := hsame.step (W := W) ha hc
        obtain ⟨t', ht'⟩ := ih _ _ q as' ((step_frame s o).tidy ht) hq h2
        refine ⟨t', ?_⟩
        have e2 : opsOn i (o :: os) = o :: opsOn i os := by simp [opsOn, ho]
        have e3 : answersOn i (o :: os) (a :: as') = a :: answersOn i os as' := by simp [answersOn, ho]
        rw [e2, e3]
        rcases h1 with ⟨x, rfl, h1⟩ | ⟨e, rfl, h1⟩
        · exact runs_ok (by rw [← e1]; exact h1) ht'
        · exact runs_err (by rw [← e1]; exact h1) ht'
      · have e2 : opsOn i (o :: os) = opsOn i os := by simp [opsOn, ho]
        have e3 : answersOn i (o :: os) (a :: as') = answersOn i os as' := by simp [answersOn, ho]
        rw [e2, e3]
        have hf := not_addressed (W := W) ho s
        refine ih _ t p as' ((step_frame s o).tidy ht) ⟨hf.port i p (by simp) hsame.left, hsame.right, fun k hk => ?_, hsame.hard⟩ h2
        rw [hf.stream ht i k (by simp) ⟨p, hsame.left, hk⟩ ?_, hsame.stream k hk]
        rintro rfl
        exact hi (ht.out i ⟨p, hsame.left, hk⟩)
  exact key ops s s p as hs.tidy ⟨hp, hp, fun _ _ => rfl, hard⟩ h

/-- The port `i` is an input port that will deliver `rest`. -/
structure Feeds (s : PS σ) (i : Nat) (rest : Bytes) (p : PortRec) : Prop where
  port : s.ports[i]? = some p
  dir : p.isInput = true
  hard : p.kind ≠ .soft
  rest : (p.closed = true ∧ rest = []) ∨
    (p.closed = false ∧ p.kind = .strIn ∧ p.file = none ∧ p.inp.closed = false ∧ left p.inp = rest) ∨
    (p.closed = false ∧ p.kind = .fileIn ∧ ∃ k f, p.file = some k ∧ s.streams[k]? = some f ∧ f.isOpen = true ∧ f.inp.closed = false ∧
      left f.inp = rest)

theorem readChar_closed {q : In} (h : q.closed = false) : (Port.readChar q).2.closed = false := by
  unfold Port.readChar
  rw [if_neg (by simp [h])]
  split <;> exact h

theorem ansChar_seen (c : Option UInt8) : some (ansChar c) = seenAs (.char c) := by cases c <;> rfl

theorem peek_ready {q : In} (h : q.closed = false) : (Port.peekChar q).isSome = Port.charReady q := by
  unfold Port.peekChar Port.charReady
  simp only [h, Bool.false_eq_true, if_false]
  by_cases hl : q.pos ≥ q.data.length
  · rw [if_pos hl]; simp; omega
  · rw [if_neg hl]; simp; omega

theorem Feeds.step {W : World σ} {s : PS σ} {i : Nat} {rest : Bytes} {p : PortRec} (h : Feeds s i rest p) (o : InOp) :
    ∃ x, seenAs (specIn rest o).1 = some x ∧ (step W s (inOp i o)).1 = .ok x ∧ ∃ q, Feeds (step W s (inOp i o)).2 i (specIn rest o).2 q := by
  have gp := getPort_eq h.port
  have hlt := (List.getElem?_eq_some_iff.mp h.port).1
  rcases h.rest with ⟨hc, rfl⟩ | ⟨hc, hk, hf, hic, hl⟩ | ⟨hc, hk, k, f, hf, hs, ho, hic, hl⟩
  · cases o
    · refine ⟨.eof, rfl, ?_, p, ?_⟩
      · simp [inOp, Ports.step, Ports.readChar, gp, h.dir, h.hard, readCharFrom, hc, ansChar]
      · simpa [inOp, Ports.step, Ports.readChar, gp, h.dir, h.hard, readCharFrom, hc, specIn] using h
    · refine ⟨.eof, rfl, ?_, p, ?_⟩
      · simp [inOp, Ports.step, Ports.peekChar, gp, h.dir, peekCharFrom, hc, ansChar]
      · simpa [inOp, Ports.step, Ports.peekChar, gp, h.dir, peekCharFrom, hc, specIn] using h
    · refine ⟨.bool false, rfl, ?_, p, ?_⟩
      · simp [inOp, Ports.step, Ports.charReady, gp, h.dir, hc]
      · simpa [inOp, Ports.step, Ports.charReady, gp, h.dir, hc, specIn] using h
    · refine ⟨.unspecified, rfl, ?_, p, ?_⟩
      · simp [inOp, Ports.step, closeInputPort, gp, h.dir, closePort, hc]
      · simpa [inOp, Ports.step, closeInputPort, gp, h.dir, closePort, hc, specIn] using h
  · subst hl
    obtain ⟨e1, e2⟩ := portIn_spec p.inp o
    cases o
    · refine ⟨ansChar (Port.readChar p.inp).1, ?_, ?_, { p with inp := (Port.readChar p.inp).2 }, ?_⟩
      · rw [← e1, ansChar_seen]; rfl
      · simp [inOp, Ports.step, Ports.readChar, gp, h.dir, h.hard, readCharFrom, hc, hk]
      · refine ⟨?_, h.dir, h.hard, .inr (.inl ⟨hc, hk, hf, readChar_closed hic, e2⟩)⟩
        simp [inOp, Ports.step, Ports.readChar, gp, h.dir, readCharFrom, hc, hk, setPort, List.getElem?_set_self hlt]
    · refine ⟨ansChar (Port.peekChar p.inp), ?_, ?_, p, ?_⟩
      · rw [← e1, ansChar_seen]; rfl
      · simp [inOp, Ports.step, Ports.peekChar, gp, h.dir, peekCharFrom, hc, hk]
      · simpa [inOp, Ports.step, Ports.peekChar, gp, h.dir, peekCharFrom, hc, hk, specIn] using h
    · refine ⟨.bool (Port.charReady p.inp), ?_, ?_, p, ?_⟩
      · rw [← e1]; rfl
      · simp [inOp, Ports.step, Ports.charReady, gp, h.dir, peekCharFrom, hc, hk, peek_ready hic]
      · simpa [inOp, Ports.step, Ports.charReady, gp, h.dir, peekCharFrom, hc, hk, specIn] using h
    · refine ⟨.unspecified, rfl, ?_, { p with closed := true }, ?_⟩
      · simp [inOp, Ports.step, closeInputPort, gp, h.dir, closePort, hc, hk, hf]
      · refine ⟨?_, h.dir, h.hard, .inl ⟨rfl, rfl⟩⟩
        simp [inOp, Ports.step, closeInputPort, gp, h.dir, closePort, hc, hk, hf, markClosed, setPort, List.getElem?_set_self hlt]
  · subst hl
    have gs : getStream s k = .ok f := by rw [getStream, hs]; simp [ho]
    have hkl := (List.getElem?_eq_some_iff.mp hs).1
    obtain ⟨e1, e2⟩ := portIn_spec f.inp o
    cases o
    · refine ⟨ansChar (Port.readChar f.inp).1, ?_, ?_, p, ?_⟩
      · rw [← e1, ansChar_seen]; rfl
      · simp [inOp, Ports.step, Ports.readChar, gp, h.dir, h.hard, readCharFrom, hc, hk, hf, gs]
      · refine ⟨?_, h.dir, h.hard, .inr (.inr ⟨hc, hk, k, { f with inp := (Port.readChar f.inp).2 }, hf, ?_, ho, readChar_closed hic, e2⟩)⟩
        · simpa [inOp, Ports.step, Ports.readChar, gp, h.dir, readCharFrom, hc, hk, hf, gs] using h.port
        · simp [inOp, Ports.step, Ports.readChar, gp, h.dir, readCharFrom, hc, hk, hf, gs, List.getElem?_set_self hkl]
    · refine ⟨ansChar (Port.peekChar f.inp), ?_, ?_, p, ?_⟩
      · rw [← e1, ansChar_seen]; rfl
      · simp [inOp, Ports.step, Ports.peekChar, gp, h.dir, peekCharFrom, hc, hk, hf, gs]
      · simpa [inOp, Ports.step, Ports.peekChar, gp, h.dir, peekCharFrom, hc, hk, hf, gs, specIn] using h
    · refine ⟨.bool (Port.charReady f.inp), ?_, ?_, p, ?_⟩
      · rw [← e1]; rfl
      · simp [inOp, Ports.step, Ports.charReady, gp, h.dir, peekCharFrom, hc, hk, hf, gs, peek_ready hic]
      · simpa [inOp, Ports.step, Ports.charReady, gp, h.dir, peekCharFrom, hc, hk, hf, gs, specIn] using h
    · have hcl : fclose s k = (.ok (), drain s k { f with isOpen := false } f.pend.length) := by unfold fclose; rw [gs]
      refine ⟨.unspecified, rfl, ?_, { p with closed := true, file := none }, ?_⟩
      · simp [inOp, Ports.step, closeInputPort, gp, h.dir, closePort, hc, hk, hf, hcl]
      · refine ⟨?_, h.dir, h.hard, .inl ⟨rfl, rfl⟩⟩
        simp [inOp, Ports.step, closeInputPort, gp, h.dir, closePort, hc, hk, hf, hcl, markClosed, setPort, drain, List.getElem?_set_self hlt]

theorem Feeds.runs {W : World σ} (i : Nat) : ∀ (ins : List InOp) (s : PS σ) (rest : Bytes) (p : PortRec), Feeds s i rest p →
    ∃ t, runs W s (ins.map (inOp i)) = some ((specRun rest ins).map seenAs, t)
  | [], s, _, _, _ => ⟨s, rfl⟩
  | o :: os, s, rest, p, h => by
    obtain ⟨x, e1, e2, q, hq⟩ := h.step (W := W) o
    obtain ⟨t, ht⟩ := Feeds.runs i os _ _ q hq
    refine ⟨t, ?_⟩
    rw [List.map_cons, runs_ok e2 ht, specRun, List.map_cons, e1]

theorem interleaved_input {W : World σ} {s : PS σ} (ht : Tidy s) {i : Nat} (hi : i ≠ 2) {text : Bytes} {p : PortRec} (hp : Feeds s i text p)
    {ops : List Op} {ins : List InOp} (hops : opsOn i ops = ins.map (inOp i)) {as : List (Option Ans)} {s' : PS σ}
    (h : runs W s ops = some (as, s')) (hr : AfterProgram W s) : answersOn i ops as = (specRun text ins).map seenAs := by
  obtain ⟨t, e⟩ := interleaving W s hr i hi p hp.port hp.hard ops as s' h
  obtain ⟨t', e'⟩ := hp.runs (W := W) i ins
  rw [hops, e'] at e
  exact (Prod.mk.inj (Option.some.inj e)).1.symm

theorem reached_step {W : World σ} {s : PS σ} (h : AfterProgram W s) {o : Op} {x : Ans} {t : PS σ} (e : step W s o = (.ok x, t)) : AfterProgram W t := by
  obtain ⟨files, stdin, u, before, as, hb⟩ := h
  have key : ∀ (ops : List Op) (s0 : PS σ) (as : List (Option Ans)), runs W s0 ops = some (as, s) → ∃ as', runs W s0 (ops ++ [o]) = some (as', t) := by
    intro ops
    induction ops with
    | nil =>
      intro s0 as h
      rw [runs] at h; cases h
      exact ⟨[some x], by rw [List.nil_append]; exact runs_ok (by rw [e]) (by rw [e]; rfl)⟩
    | cons o' os ih =>
      intro s0 as h
      obtain ⟨a, as', -, h2, h1⟩ := runs_cons h
      obtain ⟨as'', h3⟩ := ih _ _ h2
      rcases h1 with ⟨y, -, h1⟩ | ⟨y, -, h1⟩
      · exact ⟨_, runs_ok h1 h3⟩
      · exact ⟨_, runs_err h1 h3⟩
  obtain ⟨as', h'⟩ := key before _ as hb
  exact ⟨files, stdin, u, _, as', h'⟩

/-- The state of a port on the file and of what surrounds it. -/
def FileState (name : Bytes) (i : Nat) (s : PS σ) (w : Bytes) : Prop :=
  Around name i s ∧ ((∃ k p f, Writing name i k p f s w) ∨ Finished name i s w)

theorem finished_step {W : World σ} {name : Bytes} {i : Nat} {s : PS σ} {w : Bytes} {o : Op} (a : Around name i s) (h : Finished name i s w)
    (hn : ∀ n, o = .openOut n → cstr n ≠ name) : Around name i (step W s o).2 ∧ Finished name i (step W s o).2 w := by
  obtain ⟨p, hp, hk, hd, hc⟩ := h.port
  have gp := getPort_eq hp
  by_cases ho : o.arg = .port i
  · have : (step W s o).2 = s ∨ ∃ a b c, (step W s o).2 = { s with curIn := a, curOut := b, curErr := c } := by
      cases o <;> simp only [Op.arg] at ho <;> (first | (exact absurd ho (by simp)) | subst ho) <;> simp only [step]
      case setCurrent c =>
        simp only [setCurrent, gp]
        split
        · cases c
          · exact .inr ⟨i, s.curOut, s.curErr, rfl⟩
          · exact .inr ⟨s.curIn, i, s.curErr, rfl⟩
          · exact .inr ⟨s.curIn, s.curOut, i, rfl⟩
        · exact .inl rfl
      all_goals left
      all_goals simp [Ports.readChar, Ports.peekChar, Ports.read, Ports.charReady, Ports.writeChar, Ports.print, Ports.newline, forceOutput,
        getOutputString, closeInputPort, closeOutputPort, isInputPort, isOutputPort, gp, hk, hd, hc, writeCharTo, writeStringTo, closePort, unspec]
    rcases this with e | ⟨x, y, z, e⟩
    · rw [e]; exact ⟨a, h⟩
    · rw [e]
      exact ⟨⟨⟨a.tidy.inj, a.tidy.lt, a.tidy.std, a.tidy.out⟩, ⟨a.others.others, a.others.std⟩⟩, ⟨h.port, h.disk⟩⟩
  · obtain ⟨h1, h2, h3⟩ := step_quiet (W := W) s o ho hn a.tidy a.others
    exact ⟨⟨h1, h3⟩, ⟨p, (step_frame s o).port i p ho hp, hk, hd, hc⟩, by rw [h2]; exact h.disk⟩

theorem writing_step {W : World σ} {name : Bytes} {i k : Nat} {p : PortRec} {f : Stream} {s : PS σ} {w : Bytes} {o : Op}
    (a : Around name i s) (h : Writing name i k p f s w) (hn : ∀ n, o = .openOut n → cstr n ≠ name)
    (h0 : ∀ m d, o = .print m d (.port i) → (0 : UInt8) ∉ Rd.print W.flo m d) :
    (o ≠ .closeOut (.port i) ∧ Around name i (step W s o).2 ∧ (∃ f', Writing name i k p f' (step W s o).2 (w ++ sentTo W.flo i [o])) ∧
      (o = .flush (.port i) → (step W s o).2.files name = some w)) ∨
    (o = .closeOut (.port i) ∧ Around name i (step W s o).2 ∧ Finished name i (step W s o).2 w) := by
  have gp := getPort_eq h.port
  by_cases ho : o.arg = .port i
  · cases o <;> simp only [Op.arg] at ho <;> (first | (exact absurd ho (by simp)) | subst ho) <;> simp only [step]
    case setCurrent c =>
      refine .inl ⟨by simp, ?_⟩
      have : ∃ x y z, (setCurrent s c (.port i)).2 = { s with curIn := x, curOut := y, curErr := z } := by
        simp only [setCurrent, gp]
        split
        · cases c
          · exact ⟨i, s.curOut, s.curErr, rfl⟩
          · exact ⟨s.curIn, i, s.curErr, rfl⟩
          · exact ⟨s.curIn, s.curOut, i, rfl⟩
        · exact ⟨s.curIn, s.curOut, s.curErr, rfl⟩
      obtain ⟨x, y, z, e⟩ := this
      rw [e]
      refine ⟨⟨⟨a.tidy.inj, a.tidy.lt, a.tidy.std, a.tidy.out⟩, ⟨a.others.others, a.others.std⟩⟩, ⟨f, ?_⟩, by simp⟩
      rw [show sentTo W.flo i [Op.setCurrent c (.port i)] = [] from rfl, List.append_nil]
      exact ⟨h.port, h.kind, h.dir, h.opened, h.file, h.stream, h.live, h.path, h.disk, h.ordinary⟩
    case writeChar c =>
      refine .inl ⟨by simp, ?_⟩
      have e : Ports.writeChar W s c (.port i) = unspec (fput W s k [c]) := by
        simp [Ports.writeChar, gp, h.kind, h.dir, writeCharTo, h.opened, h.file]
      rw [e, unspec_snd]
      obtain ⟨-, h2, h3⟩ := h.fput (W := W) a [c]
      exact ⟨h2, by simpa [sentTo] using h3, by simp⟩
    case newline =>
      refine .inl ⟨by simp, ?_⟩
      have e : Ports.newline W s (.port i) = unspec (fput W s k [10]) := by
        simp [Ports.newline, gp, h.kind, h.dir, writeCharTo, h.opened, h.file]
      rw [e, unspec_snd]
      obtain ⟨-, h2, h3⟩ := h.fput (W := W) a [10]
      exact ⟨h2, by simpa [sentTo] using h3, by simp⟩
    case print m d =>
      refine .inl ⟨by simp, ?_⟩
      have e : Ports.print W s m d (.port i) = unspec (fput W s k (Rd.print W.flo m d)) := by
        simp [Ports.print, gp, h.kind, h.dir, writeStringTo, h.opened, h.file, Rd.cstr_self (h0 m d rfl)]
      rw [e, unspec_snd]
      obtain ⟨-, h2, h3⟩ := h.fput (W := W) a (Rd.print W.flo m d)
      exact ⟨h2, by simpa [sentTo] using h3, by simp⟩
    case flush =>
      refine .inl ⟨by simp, ?_⟩
      have e : forceOutput W s (.port i) = unspec (fflush s k) := by
        simp [forceOutput, gp, h.kind, h.dir, h.opened, h.file]
      rw [e, unspec_snd]
      obtain ⟨-, h2, f', h3, h4⟩ := h.fflush a
      exact ⟨h2, ⟨f', by simpa [sentTo] using h3⟩, fun _ => h3.disk_of_empty h4⟩
    case closeOut =>
      refine .inr ⟨trivial, ?_⟩
      have e : closeOutputPort W s (.port i) = closePort W s i p := by simp [closeOutputPort, gp, h.dir]
      rw [e]
      exact (h.close (W := W) a).2
    all_goals refine .inl ⟨by simp, ?_⟩
    all_goals
      refine ⟨?_, ⟨f, ?_⟩, by simp⟩
      · simpa [Ports.readChar, Ports.peekChar, Ports.read, Ports.charReady, getOutputString, closeInputPort, isInputPort, isOutputPort, gp,
          h.kind, h.dir, h.opened] using a
      · simpa [Ports.readChar, Ports.peekChar, Ports.read, Ports.charReady, getOutputString, closeInputPort, isInputPort, isOutputPort, gp,
          h.kind, h.dir, h.opened, sentTo] using h
  · refine .inl ⟨by rintro rfl; exact ho rfl, ?_⟩
    obtain ⟨h1, h2, h3⟩ := step_quiet (W := W) s o ho hn a.tidy a.others
    have hsent : sentTo W.flo i [o] = [] := by
      unfold sentTo
      split <;> (try simp only [Op.arg, ne_eq, Arg.port.injEq] at ho) <;> simp_all [sentTo]
    refine ⟨⟨h1, h3⟩, ⟨f, ?_⟩, by rintro rfl; exact absurd rfl ho⟩
    rw [hsent, List.append_nil]
    have hf := step_frame (W := W) s o
    exact ⟨hf.port i p ho h.port, h.kind, h.dir, h.opened, h.file,
      by rw [hf.stream a.tidy i k ho ⟨p, h.port, h.file⟩ h.ordinary]; exact h.stream, h.live, h.path, by rw [h2]; exact h.disk, h.ordinary⟩

theorem sentTo_cons (F : Rd.FloIO) (i : Nat) (o : Op) (os : List Op) (h : o ≠ .closeOut (.port i)) :
    sentTo F i (o :: os) = sentTo F i [o] ++ sentTo F i os := by
  cases o
  case closeOut a => cases a with
    | port j => simp only [sentTo]; rw [if_neg (fun e => h (by rw [e]))]; split <;> simp
    | _ => simp [sentTo]
  case writeChar c a => cases a <;> simp only [sentTo] <;> (try split) <;> simp
  case print m d a => cases a <;> simp only [sentTo] <;> (try split) <;> simp
  case newline a => cases a <;> simp only [sentTo] <;> (try split) <;> simp
  all_goals simp [sentTo]

theorem file_runs {W : World σ} {name : Bytes} {i : Nat} : ∀ (ops : List Op) (s s' : PS σ) (w : Bytes) (as : List (Option Ans)),
    (∀ n, .openOut n ∈ ops → cstr n ≠ name) → (∀ m d, .print m d (.port i) ∈ ops → (0 : UInt8) ∉ Rd.print W.flo m d) →
    runs W s ops = some (as, s') → Around name i s →
    (Finished name i s w → Around name i s' ∧ Finished name i s' w) ∧
    (∀ k p f, Writing name i k p f s w → FileState name i s' (w ++ sentTo W.flo i ops)) := by
  intro ops
  induction ops with
  | nil =>
    intro s s' w as _ _ h a
    rw [runs] at h; cases h
    exact ⟨fun hf => ⟨a, hf⟩, fun k p f hw => ⟨a, .inl ⟨k, p, f, by simpa [sentTo] using hw⟩⟩⟩
  | cons o os ih =>
    intro s s' w as hn h0 h a
    obtain ⟨x, as', -, h2, -⟩ := runs_cons h
    have hn1 : ∀ n, o = .openOut n → cstr n ≠ name := fun n e => hn n (by rw [e]; exact List.mem_cons_self ..)
    have hn2 : ∀ n, .openOut n ∈ os → cstr n ≠ name := fun n e => hn n (List.mem_cons_of_mem _ e)
    have h01 : ∀ m d, o = .print m d (.port i) → (0 : UInt8) ∉ Rd.print W.flo m d := fun m d e => h0 m d (by rw [e]; exact List.mem_cons_self ..)
    have h02 : ∀ m d, .print m d (.port i) ∈ os → (0 : UInt8) ∉ Rd.print W.flo m d := fun m d e => h0 m d (List.mem_cons_of_mem _ e)
    constructor
    · intro hf
      obtain ⟨a', hf'⟩ := finished_step (W := W) a hf hn1
      exact (ih _ s' w as' hn2 h02 h2 a').1 hf'
    · intro k p f hw
      rcases writing_step a hw hn1 h01 with ⟨hne, a', ⟨f', hw'⟩, -⟩ | ⟨rfl, a', hf'⟩
      · have := (ih _ s' _ as' hn2 h02 h2 a').2 k p f' hw'
        rw [sentTo_cons _ _ _ _ hne, ← List.append_assoc]
        exact this
      · obtain ⟨a'', hf''⟩ := (ih _ s' w as' hn2 h02 h2 a').1 hf'
        refine ⟨a'', .inr ?_⟩
        simpa [sentTo] using hf''

theorem runs_append {W : World σ} : ∀ (ops : List Op) (s s' : PS σ) (o : Op) (as : List (Option Ans)), runs W s (ops ++ [o]) = some (as, s') →
    ∃ as' t, runs W s ops = some (as', t) ∧ s' = (step W t o).2
  | [], s, s', o, as, h => by
    obtain ⟨a, as', -, h2, -⟩ := runs_cons h
    rw [runs] at h2; cases h2
    exact ⟨[], s, rfl, rfl⟩
  | o' :: os, s, s', o, as, h => by
    obtain ⟨a, as', -, h2, h1⟩ := runs_cons h
    obtain ⟨as'', t, h3, h4⟩ := runs_append os _ s' o as' h2
    rcases h1 with ⟨x, -, h1⟩ | ⟨x, -, h1⟩
    · exact ⟨_, t, runs_ok h1 h3, h4⟩
    · exact ⟨_, t, runs_err h1 h3, h4⟩

theorem sane_initial (files : Bytes → Option Bytes) (stdin : Bytes) (u : σ) : Sane (initial files stdin u) := by
  refine ⟨fun f h => ?_, fun j p k f hp hk hf hkind => ?_, fun p h => ?_, by simp [initial]⟩
  · simp only [initial, stdoutK] at h
    cases h
    simp
  · match j, hp with
    | 0, hp => cases hp; exact absurd rfl hkind
    | 1, hp => cases hp; cases hk; cases hf; rfl
    | 2, hp => cases hp; exact absurd rfl hkind
    | n + 3, hp => simp [initial] at hp
  · cases h; rfl

theorem sane_runs {W : World σ} : ∀ (ops : List Op) (s s' : PS σ) (as : List (Option Ans)), Tidy s → Sane s → runs W s ops = some (as, s') → Sane s'
  | [], _, _, _, _, h, e => by rw [runs] at e; cases e; exact h
  | o :: os, s, s', as, t, h, e => by
    obtain ⟨a, as', -, h2, -⟩ := runs_cons e
    exact sane_runs os _ s' as' ((step_frame s o).tidy t) (h.step t o) h2

theorem AfterProgram.sane {W : World σ} {s : PS σ} (h : AfterProgram W s) : Sane s := by
  obtain ⟨files, stdin, u, before, as, e⟩ := h
  exact sane_runs before _ _ as (tidy_initial files stdin u) (sane_initial files stdin u) e

theorem runs_trans {W : World σ} : ∀ (ops ops' : List Op) (s t s' : PS σ) (as as' : List (Option Ans)), runs W s ops = some (as, t) →
    runs W t ops' = some (as', s') → runs W s (ops ++ ops') = some (as ++ as', s')
  | [], _, _, _, _, _, _, h, h' => by rw [runs] at h; cases h; exact h'
  | o :: os, ops', s, t, s', as, as', h, h' => by
    obtain ⟨a, as1, rfl, h2, h1⟩ := runs_cons h
    have := runs_trans os ops' _ t s' as1 as' h2 h'
    rcases h1 with ⟨x, rfl, h1⟩ | ⟨x, rfl, h1⟩
    · exact runs_ok h1 this
    · exact runs_err h1 this

theorem AfterProgram.runs {W : World σ} {s s' : PS σ} (h : AfterProgram W s) {ops : List Op} {as : List (Option Ans)} (e : runs W s ops = some (as, s')) :
    AfterProgram W s' := by
  obtain ⟨files, stdin, u, before, as0, hb⟩ := h
  exact ⟨files, stdin, u, _, _, runs_trans before ops _ _ _ _ _ hb e⟩

theorem cstr_noNul (s : Bytes) : (0 : UInt8) ∉ cstr s := by
  unfold cstr
  induction s with
  | nil => simp
  | cons a t ih =>
    rw [List.takeWhile_cons]
    split
    · rename_i h
      simp only [List.mem_cons, not_or]
      exact ⟨by rintro rfl; simp at h, ih⟩
    · simp

/-- The state after a file was opened for output. -/
def afterOpen (s : PS σ) (name : Bytes) : PS σ :=
  { s with
    streams := s.streams ++ [⟨cstr name, Port.openIn [], 0, [], true⟩]
    files := fun n => if n = cstr name then some [] else s.files n
    ports := s.ports ++ [{ blank .fileOut false with file := some s.streams.length }] }

theorem open_step {W : World σ} {s : PS σ} {name : Bytes} (hw : W.writable (cstr name) = true) :
    step W s (.openOut name) = (.ok (.port s.ports.length), afterOpen s name) := by
  simp [step, openOutputFile, hw, newPort, afterOpen]

theorem open_writing {s : PS σ} {name : Bytes} (t : Tidy s) (sn : Sane s) (hn : NotBeingWritten s (cstr name)) :
    Around (cstr name) s.ports.length (afterOpen s name) ∧
      ∃ p f, Writing (cstr name) s.ports.length s.streams.length p f (afterOpen s name) [] := by
  have hstd := t.std
  refine ⟨⟨?_, ?_, ?_⟩, { blank .fileOut false with file := some s.streams.length }, ⟨cstr name, Port.openIn [], 0, [], true⟩, ?_⟩
  · exact (Frame.append (c := fun _ => False) (s := s) (ns := [_]) (q := { blank .fileOut false with file := some s.streams.length })
      (by rintro k hk; cases hk; exact ⟨rfl, by simp⟩)).tidy t
  · intro j p k f hne hp hk hf
    simp only [afterOpen] at hp hf
    have hj : j < s.ports.length := by
      have := (List.getElem?_eq_some_iff.mp hp).1
      simp only [List.length_append, List.length_cons, List.length_nil] at this
      omega
    rw [List.getElem?_append_left hj] at hp
    rw [List.getElem?_append_left (t.lt j k ⟨p, hp, hk⟩)] at hf
    by_cases hkind : p.kind = .fileOut
    · exact .inl (hn j p k f hp hkind hk hf)
    · exact .inr ⟨sn.clean j p k f hp hk hf hkind, hkind⟩
  · intro f hf
    simp only [afterOpen] at hf
    rw [List.getElem?_append_left (by simp only [stdoutK]; omega)] at hf
    intro h
    exact cstr_noNul name (h ▸ sn.std f hf)
  · refine ⟨by simp [afterOpen], rfl, rfl, rfl, rfl, by simp [afterOpen], rfl, rfl, ⟨[], by simp [afterOpen], rfl, rfl⟩, ?_⟩
    simp only [stdoutK, ne_eq]
    omega

/-- Once it is closed, everything is in the file. -/
theorem file_closed {W : World σ} {name : Bytes} {i : Nat} : ∀ (ops : List Op) (s s' : PS σ) (w : Bytes) (as : List (Option Ans)),
    (∀ n, .openOut n ∈ ops → cstr n ≠ name) → (∀ m d, .print m d (.port i) ∈ ops → (0 : UInt8) ∉ Rd.print W.flo m d) →
    runs W s ops = some (as, s') → Around name i s → .closeOut (.port i) ∈ ops →
    ∀ k p f, Writing name i k p f s w → Finished name i s' (w ++ sentTo W.flo i ops) := by
  intro ops
  induction ops with
  | nil => intro s s' w as _ _ _ _ h; cases h
  | cons o os ih =>
    intro s s' w as hn h0 h a hcl k p f hw
    obtain ⟨x, as', -, h2, -⟩ := runs_cons h
    have hn1 : ∀ n, o = .openOut n → cstr n ≠ name := fun n e => hn n (by rw [e]; exact List.mem_cons_self ..)
    have hn2 : ∀ n, .openOut n ∈ os → cstr n ≠ name := fun n e => hn n (List.mem_cons_of_mem _ e)
    have h01 : ∀ m d, o = .print m d (.port i) → (0 : UInt8) ∉ Rd.print W.flo m d := fun m d e => h0 m d (by rw [e]; exact List.mem_cons_self ..)
    have h02 : ∀ m d, .print m d (.port i) ∈ os → (0 : UInt8) ∉ Rd.print W.flo m d := fun m d e => h0 m d (List.mem_cons_of_mem _ e)
    rcases writing_step a hw hn1 h01 with ⟨hne, a', ⟨f', hw'⟩, -⟩ | ⟨rfl, a', hf'⟩
    · rw [sentTo_cons _ _ _ _ hne, ← List.append_assoc]
      exact ih _ s' _ as' hn2 h02 h2 a' ((List.mem_cons.mp hcl).resolve_left fun e => hne e.symm) k p f' hw'
    · have := ((file_runs (W := W) os _ s' w as' hn2 h02 h2 a').1 hf').2
      simpa [sentTo] using this

end Pscm
