import Verif.PortsSoft
/-!
# Lemmas for C105 (string output) and C108: what is in the buffers, and no undefined behaviour
-/
namespace Pscm
open Ports
open Rd (Bytes)
open Port (In Out)

variable {σ : Type}

/-! ## String output ports -/

/-- `w` was written to the string output port `i`. -/
structure Collects (s : PS σ) (i : Nat) (w : Bytes) (p : PortRec) : Prop where
  port : s.ports[i]? = some p
  kind : p.kind = .strOut
  dir : p.isInput = false
  file : p.file = none
  opened : p.closed = false
  data : Holds p.out w

/-- It was closed after that. -/
structure Collected (s : PS σ) (i : Nat) (w : Bytes) (p : PortRec) : Prop where
  port : s.ports[i]? = some p
  kind : p.kind = .strOut
  closed : p.closed = true
  data : Port.getOutput p.out = w

theorem Holds.get {p : Out} {w : Bytes} (H : Holds p w) : Port.getOutput p = w := by simp [Port.getOutput, H.len, H.data]

theorem collects_step {W : World σ} {s : PS σ} {i : Nat} {w : Bytes} {p : PortRec} (h : Collects s i w p) {o : Op} (ho : addressee o = some i)
    (h0 : ∀ m d, o = .print m d (.port i) → (0 : UInt8) ∉ Rd.print W.flo m d) (hb : w.length + (sentTo W.flo i [o]).length + 1 < 2 ^ 30) :
    (o ≠ .closeOut (.port i) → ∃ q, Collects (step W s o).2 i (w ++ sentTo W.flo i [o]) q) ∧
    (o = .closeOut (.port i) → ∃ q, Collected (step W s o).2 i w q) := by
  have gp := getPort_eq h.port
  have hlt := (List.getElem?_eq_some_iff.mp h.port).1
  have put : ∀ (q : Out) (v : Bytes), Holds q v → ∃ r, Collects (setPort s i { p with out := q }) i v r := fun q v hq =>
    ⟨{ p with out := q }, by simp [setPort, hlt], h.kind, h.dir, h.file, h.opened, hq⟩
  unfold addressee at ho
  split at ho <;> cases ho
  case h_5 c =>
    refine ⟨fun _ => ?_, by simp⟩
    have hb' : w.length + 2 < 2 ^ 30 := by simpa [sentTo] using hb
    obtain ⟨q, e, hq⟩ := writeChar_holds (c := c) h.data hb'
    have e' : (step W s (.writeChar c (.port i))).2 = setPort s i { p with out := q } := by
      simp [step, Ports.writeChar, gp, h.kind, h.dir, writeCharTo, h.opened, e, intoBuffer, unspec]
    rw [e']
    simpa [sentTo] using put q _ hq
  case h_6 m d =>
    refine ⟨fun _ => ?_, by simp⟩
    have hb' : w.length + (Rd.print W.flo m d).length + 1 < 2 ^ 30 := by simpa [sentTo] using hb
    obtain ⟨q, e, hq⟩ := writeString_holds h.data (h0 m d rfl) hb'
    have e' : (step W s (.print m d (.port i))).2 = setPort s i { p with out := q } := by
      simp [step, Ports.print, gp, h.kind, h.dir, writeStringTo, h.opened, e, intoBuffer, unspec]
    rw [e']
    simpa [sentTo] using put q _ hq
  case h_7 =>
    refine ⟨fun _ => ?_, by simp⟩
    have hb' : w.length + 2 < 2 ^ 30 := by simpa [sentTo] using hb
    obtain ⟨q, e, hq⟩ := writeChar_holds (c := 10) h.data hb'
    have e' : (step W s (.newline (.port i))).2 = setPort s i { p with out := q } := by
      simp [step, Ports.newline, gp, h.kind, h.dir, writeCharTo, h.opened, e, intoBuffer, unspec]
    rw [e']
    simpa [sentTo] using put q _ hq
  case h_11 =>
    refine ⟨fun h => absurd rfl h, fun _ => ⟨{ p with closed := true }, ?_, h.kind, rfl, h.data.get⟩⟩
    simp [step, closeOutputPort, closePort, gp, h.kind, h.dir, h.opened, h.file, markClosed, setPort, hlt]
  all_goals
    refine ⟨fun _ => ⟨p, ?_⟩, by simp⟩
    simpa [step, Ports.readChar, Ports.peekChar, Ports.read, Ports.charReady, forceOutput, getOutputString, closeInputPort, isInputPort, isOutputPort,
      gp, h.kind, h.dir, h.opened, sentTo] using h

theorem sentTo_elsewhere {F : Rd.FloIO} {i : Nat} {o : Op} (h : addressee o ≠ some i) : sentTo F i [o] = [] := by
  unfold sentTo
  split <;> simp_all [sentTo, addressee]

theorem collect_runs {W : World σ} {i : Nat} : ∀ (ops : List Op) (s s' : PS σ) (w : Bytes) (as : List (Option Ans)),
    (∀ m d, .print m d (.port i) ∈ ops → (0 : UInt8) ∉ Rd.print W.flo m d) → w.length + (sentTo W.flo i ops).length + 1 < 2 ^ 30 →
    runs W s ops = some (as, s') →
    (∀ p, Collected s i w p → Collected s' i w p) ∧
    (∀ p, Collects s i w p → ∃ q, Collects s' i (w ++ sentTo W.flo i ops) q ∨ Collected s' i (w ++ sentTo W.flo i ops) q) := by
  intro ops
  induction ops with
  | nil =>
    intro s s' w as _ _ h
    rw [runs] at h; cases h
    exact ⟨fun p hp => hp, fun p hp => ⟨p, .inl (by simpa [sentTo] using hp)⟩⟩
  | cons o os ih =>
    intro s s' w as h0 hb h
    obtain ⟨x, as', -, h2, -⟩ := runs_cons h
    have h01 : ∀ m d, o = .print m d (.port i) → (0 : UInt8) ∉ Rd.print W.flo m d := fun m d e => h0 m d (by rw [e]; exact List.mem_cons_self ..)
    have h02 : ∀ m d, .print m d (.port i) ∈ os → (0 : UInt8) ∉ Rd.print W.flo m d := fun m d e => h0 m d (List.mem_cons_of_mem _ e)
    have done : ∀ p, Collected s i w p → Collected s' i w p := fun p hp => by
      obtain ⟨q, h3, -, -, -, -, -, h4⟩ := (step_evolves (W := W) s o).ports i p hp.port
      rw [h4 hp.closed] at h3
      have hc : Collected (step W s o).2 i w p := ⟨h3, hp.kind, hp.closed, hp.data⟩
      have key : ∀ (ops : List Op) (s s' : PS σ) (as : List (Option Ans)), runs W s ops = some (as, s') → Collected s i w p → Collected s' i w p := by
        intro ops
        induction ops with
        | nil => intro s s' as h hp; rw [runs] at h; cases h; exact hp
        | cons o os ih =>
          intro s s' as h hp
          obtain ⟨x, as', -, h2, -⟩ := runs_cons h
          obtain ⟨q, h3, -, -, -, -, -, h4⟩ := (step_evolves (W := W) s o).ports i p hp.port
          rw [h4 hp.closed] at h3
          exact ih _ _ _ h2 ⟨h3, hp.kind, hp.closed, hp.data⟩
      exact key os _ _ _ h2 hc
    refine ⟨done, fun p hp => ?_⟩
    by_cases ho : addressee o = some i
    · by_cases hcl : o = .closeOut (.port i)
      · have hb1 : w.length + (sentTo W.flo i [o]).length + 1 < 2 ^ 30 := by
          subst hcl
          simp only [sentTo, if_true, List.length_nil] at hb ⊢
          omega
        obtain ⟨q, hq⟩ := (collects_step hp ho h01 hb1).2 hcl
        have key : ∀ (ops : List Op) (s s' : PS σ) (as : List (Option Ans)), runs W s ops = some (as, s') → Collected s i w q → Collected s' i w q := by
          intro ops
          induction ops with
          | nil => intro s s' as h hp; rw [runs] at h; cases h; exact hp
          | cons o os ih =>
            intro s s' as h hp
            obtain ⟨x, as', -, h2, -⟩ := runs_cons h
            obtain ⟨q, h3, -, -, -, -, -, h4⟩ := (step_evolves (W := W) s o).ports i _ hp.port
            rw [h4 hp.closed] at h3
            exact ih _ _ _ h2 ⟨h3, hp.kind, hp.closed, hp.data⟩
        refine ⟨q, .inr ?_⟩
        rw [hcl]
        simpa [sentTo] using key os _ _ _ h2 hq
      · rw [sentTo_cons W.flo i o os hcl] at hb ⊢
        rw [List.length_append] at hb
        obtain ⟨q, hq⟩ := (collects_step hp ho h01 (by omega)).1 hcl
        rw [← List.append_assoc]
        exact (ih _ s' _ as' h02 (by rw [List.length_append]; omega) h2).2 q hq
    · have hne : o ≠ .closeOut (.port i) := by rintro rfl; exact ho rfl
      rw [sentTo_cons W.flo i o os hne, sentTo_elsewhere ho, List.nil_append] at hb ⊢
      have hp' : Collects (step W s o).2 i w p :=
        ⟨(not_addressed ho s).port i p (by simp) hp.port, hp.kind, hp.dir, hp.file, hp.opened, hp.data⟩
      exact (ih _ s' _ as' h02 hb h2).2 p hp'

/-! ## No undefined behaviour -/

/-- An answer or a Scheme error. -/
def OkErr {α : Type} (r : Res α) : Prop := (∃ a, r = .ok a) ∨ ∃ e, r = .err e

/-- Every stream a port uses is open, the standard output is, and no buffer holds more than `n` bytes. -/
structure Safe (n : Nat) (s : PS σ) : Prop where
  live : ∀ j k, Owns s j k → ∃ f, s.streams[k]? = some f ∧ f.isOpen = true
  std : ∃ p, s.ports[2]? = some p ∧ p.file = some stdoutK ∧ p.isInput = false ∧ p.kind = .fileOut
  fits : ∀ (j : Nat) (p : PortRec), s.ports[j]? = some p → p.kind = .strOut → ∃ w, Holds p.out w ∧ w.length ≤ n

/-- The outcome of an operation is an answer or an error, and the state is still safe. -/
def Good {α : Type} (n : Nat) (x : Res α × PS σ) : Prop := OkErr x.1 ∧ Safe n x.2

theorem Safe.mono {n m : Nat} {s : PS σ} (h : Safe n s) (hm : n ≤ m) : Safe m s :=
  ⟨h.live, h.std, fun j p hp hk => by obtain ⟨w, h1, h2⟩ := h.fits j p hp hk; exact ⟨w, h1, Nat.le_trans h2 hm⟩⟩

theorem Safe.ok {α : Type} {n : Nat} {s : PS σ} (h : Safe n s) (a : α) : Good n ((.ok a, s) : Res α × PS σ) := ⟨.inl ⟨a, rfl⟩, h⟩

theorem Safe.err {α : Type} {n : Nat} {s : PS σ} (h : Safe n s) (e : Err) : Good n ((.err e, s) : Res α × PS σ) := ⟨.inr ⟨e, rfl⟩, h⟩

theorem Safe.own2 {n : Nat} {s : PS σ} (h : Safe n s) : Owns s 2 stdoutK := by
  obtain ⟨p, h1, h2, -⟩ := h.std
  exact ⟨p, h1, h2⟩

theorem Safe.stream {n : Nat} {s : PS σ} (h : Safe n s) {j k : Nat} (ho : Owns s j k) : ∃ f, s.streams[k]? = some f ∧ getStream s k = .ok f := by
  obtain ⟨f, h1, h2⟩ := h.live j k ho
  exact ⟨f, h1, by rw [Ports.getStream, h1]; simp [h2]⟩

theorem Safe.setStream {n k : Nat} {s : PS σ} (h : Safe n s) {f g : Ports.Stream} (hf : s.streams[k]? = some f) (hg : g.isOpen = true)
    (fs : Bytes → Option Bytes) : Safe n { s with streams := s.streams.set k g, files := fs } := by
  refine ⟨fun j k' ho => ?_, h.std, h.fits⟩
  simp only
  by_cases hk : k = k'
  · subst hk
    exact ⟨g, List.getElem?_set_self (List.getElem?_eq_some_iff.mp hf).1, hg⟩
  · rw [List.getElem?_set_ne hk]
    exact h.live j k' ho

theorem isOpen_of_live {n : Nat} {s : PS σ} (h : Safe n s) {j k : Nat} (ho : Owns s j k) {f : Ports.Stream} (hf : s.streams[k]? = some f) :
    f.isOpen = true := by
  obtain ⟨f', h1, h2⟩ := h.live j k ho
  rw [h1] at hf; cases hf; exact h2

theorem fput_good {W : World σ} {n : Nat} {s : PS σ} (h : Safe n s) {j k : Nat} (ho : Owns s j k) (bs : Bytes) : Good n (fput W s k bs) := by
  obtain ⟨f, h1, h2⟩ := h.stream ho
  have hopen : f.isOpen = true := isOpen_of_live h ho h1
  unfold fput
  rw [h2]
  exact ⟨.inl ⟨(), rfl⟩, h.setStream (g := { f with done := f.done + ((f.pend ++ bs).take (W.spill (f.pend ++ bs))).length, pend := (f.pend ++ bs).drop (W.spill (f.pend ++ bs)) }) h1 hopen _⟩

theorem fflush_good {n : Nat} {s : PS σ} (h : Safe n s) {j k : Nat} (ho : Owns s j k) : Good n (fflush s k) := by
  obtain ⟨f, h1, h2⟩ := h.stream ho
  have hopen : f.isOpen = true := isOpen_of_live h ho h1
  unfold fflush
  rw [h2]
  exact ⟨.inl ⟨(), rfl⟩, h.setStream (g := { f with done := f.done + (f.pend.take f.pend.length).length, pend := f.pend.drop f.pend.length }) h1 hopen _⟩

theorem Good.unspec {n : Nat} {x : Res Unit × PS σ} (h : Good n x) : Good n (unspec x) := by
  obtain ⟨r, s⟩ := x
  obtain ⟨⟨a, e⟩ | ⟨a, e⟩, h2⟩ := h <;> simp only at e <;> subst e
  · exact h2.ok _
  · exact h2.err _

theorem Safe.setPort {n i : Nat} {s : PS σ} (h : Safe n s) {p q : PortRec} (hp : s.ports[i]? = some p) (h1 : q.kind = p.kind)
    (h2 : q.isInput = p.isInput) (h3 : q.file = p.file) (h4 : q.kind = .strOut → ∃ w, Holds q.out w ∧ w.length ≤ n) :
    Safe n (Ports.setPort s i q) := by
  have hl := (List.getElem?_eq_some_iff.mp hp).1
  refine ⟨fun j k ho => ?_, ?_, fun j r hr hk => ?_⟩
  · obtain ⟨r, hr, hk⟩ := ho
    simp only [Ports.setPort] at hr ⊢
    by_cases hj : i = j
    · subst hj
      rw [List.getElem?_set_self hl] at hr; cases hr
      exact h.live i k ⟨p, hp, h3 ▸ hk⟩
    · rw [List.getElem?_set_ne hj] at hr
      exact h.live j k ⟨r, hr, hk⟩
  · obtain ⟨r, hr, h5, h6, h7⟩ := h.std
    simp only [Ports.setPort]
    by_cases hj : i = 2
    · subst hj
      rw [hp] at hr; cases hr
      exact ⟨q, List.getElem?_set_self hl, h3.trans h5, h2.trans h6, h1.trans h7⟩
    · rw [List.getElem?_set_ne hj]
      exact ⟨r, hr, h5, h6, h7⟩
  · simp only [Ports.setPort] at hr
    by_cases hj : i = j
    · subst hj
      rw [List.getElem?_set_self hl] at hr; cases hr
      exact h4 hk
    · rw [List.getElem?_set_ne hj] at hr
      exact h.fits j r hr hk

theorem Safe.user {n : Nat} {s : PS σ} (h : Safe n s) (u : σ) : Safe n { s with user := u } := ⟨h.live, h.std, h.fits⟩

/-- The procedures of soft ports return or raise an error. -/
def Tame (W : World σ) : Prop := ∀ f args u, OkErr (W.call f args u).1

theorem callProc_good {W : World σ} (hW : Tame W) {n : Nat} {s : PS σ} (h : Safe n s) (f : Obj) (args : List Obj) : Good n (callProc W s f args) := by
  unfold callProc
  split
  · exact h.ok _
  · split
    · exact ⟨hW _ _ _, h.user _⟩
    · exact ⟨hW _ _ _, h.user _⟩
    · exact h.ok _

theorem cstr_idem (t : Bytes) : cstr (cstr t) = cstr t := Rd.cstr_self (cstr_noNul t)

theorem cstr_le (t : Bytes) : (cstr t).length ≤ t.length := by unfold cstr; exact (List.takeWhile_sublist _).length_le

theorem writeString_cstr (p : Out) (t : Bytes) : Port.writeString p t = Port.writeString p (cstr t) := by
  unfold Port.writeString
  rw [cstr_idem]

theorem intoBuffer_good {n m i : Nat} {s : PS σ} (h : Safe n s) {p : PortRec} (hp : s.ports[i]? = some p) {r : Res Out}
    (hr : ∃ q w, r = .ok q ∧ Holds q w ∧ w.length ≤ m) (hm : n ≤ m) : Good m (intoBuffer s i p r) := by
  obtain ⟨q, w, rfl, h1, h2⟩ := hr
  exact ⟨.inl ⟨(), rfl⟩, (h.mono hm).setPort (p := p) (q := { p with out := q }) hp rfl rfl rfl fun _ => ⟨w, h1, h2⟩⟩

theorem writeCharTo_good {W : World σ} (hW : Tame W) {n i : Nat} {s : PS σ} (h : Safe n s) {p : PortRec} (hp : s.ports[i]? = some p) (c : UInt8)
    (hb : n + 2 < 2 ^ 30) : Good (n + 1) (writeCharTo W s i p c) := by
  have h' := h.mono (Nat.le_succ n)
  unfold writeCharTo
  split
  · exact h'.ok _
  · split
    · cases hk : p.file with
      | none => exact h'.ok _
      | some k => exact fput_good h' ⟨p, hp, hk⟩ _
    · rename_i hk
      obtain ⟨w, h1, h2⟩ := h.fits i p hp hk
      obtain ⟨q, h3, h4⟩ := writeChar_holds (c := c) h1 (by omega)
      exact intoBuffer_good h hp ⟨q, _, h3, h4, by simp; omega⟩ (Nat.le_succ n)
    · split
      · exact h'.ok _
      · split
        · exact h'.ok _
        · rename_i f _
          have := callProc_good hW h' f [charObj c]
          revert this
          generalize callProc W s f [charObj c] = x
          rcases x with ⟨_ | _ | _ | _ | _, s'⟩ <;> rintro ⟨⟨a, e⟩ | ⟨a, e⟩, h2⟩ <;> cases e
          · exact h2.ok _
          · exact h2.err _
    · exact h'.ok _

theorem writeStringTo_good {W : World σ} {n i : Nat} {s : PS σ} (h : Safe n s) {p : PortRec} (hp : s.ports[i]? = some p) (t : Bytes)
    (hb : n + t.length + 1 < 2 ^ 30) : Good (n + t.length) (writeStringTo W s i p t) := by
  have h' := h.mono (Nat.le_add_right n t.length)
  unfold writeStringTo
  split
  · exact h'.ok _
  · split
    · cases hk : p.file with
      | none => exact h'.ok _
      | some k => exact fput_good h' ⟨p, hp, hk⟩ _
    · rename_i hk
      obtain ⟨w, h1, h2⟩ := h.fits i p hp hk
      have hc := cstr_le t
      obtain ⟨q, h3, h4⟩ := writeString_holds h1 (cstr_noNul t) (by omega)
      rw [writeString_cstr]
      exact intoBuffer_good h hp ⟨q, _, h3, h4, by simp; omega⟩ (Nat.le_add_right n t.length)
    · exact h'.ok _

theorem readCharFrom_good {W : World σ} (hW : Tame W) {n i : Nat} {s : PS σ} (h : Safe n s) {p : PortRec} (hp : s.ports[i]? = some p) :
    Good n (readCharFrom W s i p) := by
  unfold readCharFrom
  split
  · exact h.ok _
  · split
    · cases hk : p.file with
      | none => exact h.ok _
      | some k =>
        simp only
        obtain ⟨f, h1, h2⟩ := h.stream ⟨p, hp, hk⟩
        rw [h2]
        have hopen : f.isOpen = true := isOpen_of_live h ⟨p, hp, hk⟩ h1
        exact ⟨.inl ⟨_, rfl⟩, h.setStream (g := { f with inp := (Port.readChar f.inp).2 }) (fs := s.files) h1 hopen⟩
    · rename_i hk
      exact ⟨.inl ⟨_, rfl⟩, h.setPort (q := { p with inp := (Port.readChar p.inp).2 }) hp rfl rfl rfl fun e => by rw [hk] at e; cases e⟩
    · split
      · split
        · exact h.ok _
        · rename_i g _
          have := callProc_good hW h g []
          revert this
          generalize callProc W s g [] = x
          rcases x with ⟨_ | _ | _ | _ | _, s'⟩ <;> rintro ⟨⟨a, e⟩ | ⟨a, e⟩, h2⟩ <;> cases e
          · rename_i v
            cases v <;> exact h2.ok _
          · exact h2.err _
      · exact h.ok _
    · exact h.ok _

theorem peekCharFrom_good {n i : Nat} {s : PS σ} (h : Safe n s) {p : PortRec} (hp : s.ports[i]? = some p) : ∃ c, peekCharFrom s p = .ok c := by
  unfold peekCharFrom
  split
  · exact ⟨_, rfl⟩
  · split
    · cases hk : p.file with
      | none => exact ⟨_, rfl⟩
      | some k =>
        simp only
        obtain ⟨f, h1, h2⟩ := h.stream ⟨p, hp, hk⟩
        rw [h2]
        exact ⟨_, rfl⟩
    · exact ⟨_, rfl⟩
    · exact ⟨_, rfl⟩

theorem closePort_good {W : World σ} (hW : Tame W) {n i : Nat} {s : PS σ} (t : Tidy s) (h : Safe n s) {p : PortRec} (hp : s.ports[i]? = some p)
    (hi : i ≠ 2) : Good n (closePort W s i p) := by
  have hl := (List.getElem?_eq_some_iff.mp hp).1
  unfold closePort
  split
  · exact h.ok _
  · split
    · rename_i hk
      split
      · exact ⟨.inl ⟨_, rfl⟩, h.setPort (q := { p with closed := true }) hp rfl rfl rfl fun e => by rw [hk] at e; cases e⟩
      · rename_i f _
        have hg := callProc_good hW h f []
        have hports := (callProc_ports (W := W) s f []).1
        revert hg hports
        generalize callProc W s f [] = x
        rcases x with ⟨_ | _ | _ | _ | _, s'⟩ <;> rintro ⟨⟨a, e⟩ | ⟨a, e⟩, h2⟩ hports <;> cases e
        · refine ⟨.inl ⟨_, rfl⟩, h2.setPort (p := p) (q := { p with closed := true }) ?_ rfl rfl rfl fun e => by rw [hk] at e; cases e⟩
          rw [show s'.ports = s.ports from hports]
          exact hp
        · exact h2.err _
    · split
      · rename_i k hf
        obtain ⟨f, h1, h2⟩ := h.stream ⟨p, hp, hf⟩
        have hcl : fclose s k = (.ok (), drain s k { f with isOpen := false } f.pend.length) := by unfold fclose; rw [h2]
        rw [hcl]
        simp only
        refine ⟨.inl ⟨_, rfl⟩, fun j k' ho => ?_, ?_, fun j r hr hk => ?_⟩
        · obtain ⟨r, hr, hk⟩ := ho
          simp only [markClosed, Ports.setPort, drain] at hr ⊢
          by_cases hj : i = j
          · subst hj
            rw [List.getElem?_set_self hl] at hr; cases hr
            cases hk
          · rw [List.getElem?_set_ne hj] at hr
            have hne : k ≠ k' := by
              rintro rfl
              exact hj (t.inj i j k ⟨p, hp, hf⟩ ⟨r, hr, hk⟩)
            rw [List.getElem?_set_ne hne]
            exact h.live j k' ⟨r, hr, hk⟩
        · obtain ⟨r, hr, h5, h6⟩ := h.std
          simp only [markClosed, Ports.setPort, drain]
          rw [List.getElem?_set_ne hi]
          exact ⟨r, hr, h5, h6⟩
        · simp only [markClosed, Ports.setPort, drain] at hr
          by_cases hj : i = j
          · subst hj
            rw [List.getElem?_set_self hl] at hr; cases hr
            exact h.fits i p hp hk
          · rw [List.getElem?_set_ne hj] at hr
            exact h.fits j r hr hk
      · rename_i hf
        exact ⟨.inl ⟨_, rfl⟩, h.setPort (q := { p with closed := true }) hp rfl rfl rfl fun e => h.fits i p hp e⟩

theorem Safe.append {n : Nat} {s : PS σ} (t : Tidy s) (h : Safe n s) {q : PortRec} {ns : List Ports.Stream} {fs : Bytes → Option Bytes}
    (hq : ∀ k, q.file = some k → k = s.streams.length ∧ ns ≠ []) (hn : ∀ f ∈ ns, f.isOpen = true)
    (hs : q.kind = .strOut → Holds q.out []) : Safe n { s with ports := s.ports ++ [q], streams := s.streams ++ ns, files := fs } := by
  have split : ∀ {j : Nat} {r : PortRec}, (s.ports ++ [q])[j]? = some r → s.ports[j]? = some r ∨ r = q := fun {j r} hr => by
    by_cases hj : j < s.ports.length
    · rw [List.getElem?_append_left hj] at hr; exact .inl hr
    · rw [List.getElem?_append_right (by omega)] at hr
      cases hd : j - s.ports.length with
      | zero => rw [hd] at hr; cases hr; exact .inr rfl
      | succ m => rw [hd] at hr; simp at hr
  refine ⟨fun j k ho => ?_, ?_, fun j r hr hk => ?_⟩
  · obtain ⟨r, hr, hk⟩ := ho
    simp only at hr ⊢
    rcases split hr with hr | rfl
    · rw [List.getElem?_append_left (t.lt j k ⟨r, hr, hk⟩)]
      exact h.live j k ⟨r, hr, hk⟩
    · obtain ⟨rfl, hne⟩ := hq k hk
      rw [List.getElem?_append_right (Nat.le_refl _), Nat.sub_self]
      cases ns with
      | nil => exact absurd rfl hne
      | cons a b => exact ⟨a, rfl, hn a (List.mem_cons_self ..)⟩
  · obtain ⟨r, hr, h5⟩ := h.std
    simp only
    rw [List.getElem?_append_left (List.getElem?_eq_some_iff.mp hr).1]
    exact ⟨r, hr, h5⟩
  · simp only at hr
    rcases split hr with hr | rfl
    · exact h.fits j r hr hk
    · exact ⟨[], hs hk, Nat.zero_le _⟩

/-- How many bytes an operation writes at most. -/
def volume (F : Rd.FloIO) : Op → Nat
  | .writeChar _ _ | .newline _ => 1
  | .print m d _ => (Rd.print F m d).length
  | _ => 0

theorem volume_one {F : Rd.FloIO} {c : UInt8} {a : Arg} : volume F (.writeChar c a) = 1 := rfl

theorem step_good {W : World σ} (hW : Tame W) {n : Nat} {s : PS σ} (t : Tidy s) (h : Safe n s) {o : Op} (ho : o ≠ .closeOut (.port 2))
    (hv : ∀ i, o.arg = .port i → i < s.ports.length) (hb : n + volume W.flo o + 1 < 2 ^ 30) : Good (n + volume W.flo o) (step W s o) := by
  have rec_ : ∀ {i : Nat}, o.arg = .port i → ∃ p, s.ports[i]? = some p ∧ getPort s i = .ok p := fun {i} hi => by
    have := hv i hi
    exact ⟨_, List.getElem?_eq_getElem this, getPort_eq (List.getElem?_eq_getElem this)⟩
  have h' := h.mono (Nat.le_add_right n (volume W.flo o))
  cases o with
  | openIn nm =>
    simp only [step, openInputFile]
    split
    · exact h'.err _
    · exact ⟨.inl ⟨_, rfl⟩, Safe.append (ns := [_]) (fs := s.files) t h' (by rintro k hk; cases hk; exact ⟨rfl, by simp⟩) (by simp) (by simp [blank])⟩
  | openOut nm =>
    simp only [step, openOutputFile]
    split
    · exact ⟨.inl ⟨_, rfl⟩, Safe.append (ns := [_]) t h' (by rintro k hk; cases hk; exact ⟨rfl, by simp⟩) (by simp) (by simp [blank])⟩
    · exact h'.err _
  | openInStr x =>
    have := Safe.append (ns := []) (fs := s.files) (q := { blank .strIn true with inp := Port.openIn x }) t h' (by intro k hk; cases hk) (by simp) (by simp [blank])
    exact ⟨.inl ⟨_, rfl⟩, by simpa [step, openInputString, newPort] using this⟩
  | openOutStr =>
    have := Safe.append (ns := []) (fs := s.files) (q := { blank .strOut false with out := Port.openOut }) t h' (by intro k hk; cases hk) (by simp) (fun _ => openOut_holds)
    exact ⟨.inl ⟨_, rfl⟩, by simpa [step, openOutputString, newPort] using this⟩
  | soft ps m =>
    simp only [step, makeSoftPort]
    split
    · exact h'.err _
    · split
      · have := Safe.append (ns := []) (fs := s.files) (q := { blank .soft (m.contains 114) with procs := ps, modes := m }) t h' (by intro k hk; cases hk) (by simp) (by simp [blank])
        exact ⟨.inl ⟨_, rfl⟩, by simpa [newPort] using this⟩
      · exact h'.err _
  | readChar a =>
    cases a <;> try exact h'.err _
    rename_i i
    obtain ⟨p, hp, hg⟩ := rec_ (i := i) rfl
    simp only [step, Ports.readChar, hg]
    generalize (if p.kind = Kind.soft then hasMode p 114 else p.isInput) = b
    cases b
    · exact h'.err _
    · simp only [if_true]
      have := readCharFrom_good hW h' hp
      revert this
      generalize readCharFrom W s i p = x
      rcases x with ⟨_ | _ | _ | _ | _, s'⟩ <;> rintro ⟨⟨a, e⟩ | ⟨a, e⟩, h2⟩ <;> cases e
      · exact h2.ok _
      · exact h2.err _
  | peekChar a =>
    cases a <;> try exact h'.err _
    rename_i i
    obtain ⟨p, hp, hg⟩ := rec_ (i := i) rfl
    simp only [step, Ports.peekChar, hg]
    split
    · obtain ⟨c, hc⟩ := peekCharFrom_good h' hp
      rw [hc]; exact h'.ok _
    · exact h'.err _
  | read a =>
    cases a <;> try exact h'.err _
    rename_i i
    obtain ⟨p, hp, hg⟩ := rec_ (i := i) rfl
    simp only [step, Ports.read, hg]
    split
    · split
      · exact h'.ok _
      · split
        · cases hk : p.file with
          | none => exact h'.ok _
          | some k =>
            simp only
            obtain ⟨f, h1, h2⟩ := h'.stream ⟨p, hp, hk⟩
            rw [h2]
            have hopen : f.isOpen = true := isOpen_of_live h' ⟨p, hp, hk⟩ h1
            exact ⟨.inl ⟨_, rfl⟩, h'.setStream (g := { f with inp := (Port.readExpr W.flo f.inp).2 }) (fs := s.files) h1 hopen⟩
        · rename_i hk
          exact ⟨.inl ⟨_, rfl⟩, h'.setPort (q := { p with inp := (Port.readExpr W.flo p.inp).2 }) hp rfl rfl rfl fun e => by rw [hk] at e; cases e⟩
        · exact h'.ok _
    · exact h'.err _
  | ready a =>
    cases a with
    | absent => exact h'.ok _
    | other => exact h'.err _
    | port i =>
      obtain ⟨p, hp, hg⟩ := rec_ (i := i) rfl
      simp only [step, Ports.charReady, hg]
      obtain ⟨c, hc⟩ := peekCharFrom_good h' hp
      split
      · split
        · exact h'.ok _
        · split
          · rw [hc]; exact h'.ok _
          · rw [hc]; exact h'.ok _
          · exact h'.ok _
      · exact h'.err _
  | writeChar c a =>
    cases a with
    | absent => exact (fput_good h' h'.own2 _).unspec
    | other => exact h'.err _
    | port i =>
      obtain ⟨p, hp, hg⟩ := rec_ (i := i) rfl
      simp only [step, Ports.writeChar, hg]
      generalize (if p.kind = Kind.soft then hasMode p 119 else !p.isInput) = b
      cases b
      · exact h'.err _
      · exact (writeCharTo_good hW h hp c hb).unspec
  | print m d a =>
    cases a with
    | absent => exact (fput_good h' h'.own2 _).unspec
    | other => exact h'.err _
    | port i =>
      obtain ⟨p, hp, hg⟩ := rec_ (i := i) rfl
      simp only [step, Ports.print, hg]
      split
      · exact h'.err _
      · exact (writeStringTo_good h hp _ hb).unspec
  | newline a =>
    cases a with
    | absent => exact (fput_good h' h'.own2 _).unspec
    | other => exact h'.err _
    | port i =>
      obtain ⟨p, hp, hg⟩ := rec_ (i := i) rfl
      simp only [step, Ports.newline, hg]
      split
      · exact h'.err _
      · split
        · exact h'.ok _
        · exact (writeCharTo_good hW h hp 10 hb).unspec
  | flush a =>
    cases a with
    | absent => exact (fflush_good h' h'.own2).unspec
    | other => exact h'.err _
    | port i =>
      obtain ⟨p, hp, hg⟩ := rec_ (i := i) rfl
      simp only [step, forceOutput, hg]
      split
      · exact h'.err _
      · split
        · exact h'.ok _
        · split
          · cases hk : p.file with
            | none => exact h'.ok _
            | some k => exact (fflush_good h' ⟨p, hp, hk⟩).unspec
          · split
            · exact h'.ok _
            · rename_i f _
              have := callProc_good hW h' f []
              revert this
              generalize callProc W s f [] = x
              rcases x with ⟨_ | _ | _ | _ | _, s'⟩ <;> rintro ⟨⟨a, e⟩ | ⟨a, e⟩, h2⟩ <;> cases e
              · exact h2.ok _
              · exact h2.err _
          · exact h'.ok _
  | getOutput a =>
    cases a <;> try exact h'.err _
    rename_i i
    obtain ⟨p, hp, hg⟩ := rec_ (i := i) rfl
    simp only [step, getOutputString, hg]
    split
    · exact h'.ok _
    · exact h'.err _
  | closeIn a =>
    cases a <;> try exact h'.err _
    rename_i i
    obtain ⟨p, hp, hg⟩ := rec_ (i := i) rfl
    simp only [step, closeInputPort, hg]
    split
    · rename_i hd
      refine closePort_good hW t h' hp ?_
      rintro rfl
      obtain ⟨q, hq, -, h5, -⟩ := h.std
      rw [hp] at hq; cases hq
      rw [hd] at h5; cases h5
    · exact h'.err _
  | closeOut a =>
    cases a <;> try exact h'.err _
    rename_i i
    obtain ⟨p, hp, hg⟩ := rec_ (i := i) rfl
    simp only [step, closeOutputPort, hg]
    split
    · exact h'.err _
    · exact closePort_good hW t h' hp (by rintro rfl; exact ho rfl)
  | isIn a =>
    cases a <;> try exact h'.ok _
    rename_i i
    obtain ⟨p, hp, hg⟩ := rec_ (i := i) rfl
    simp only [step, isInputPort, hg]
    exact h'.ok _
  | isOut a =>
    cases a <;> try exact h'.ok _
    rename_i i
    obtain ⟨p, hp, hg⟩ := rec_ (i := i) rfl
    simp only [step, isOutputPort, hg]
    exact h'.ok _
  | current c => exact h'.ok _
  | setCurrent c a =>
    cases a <;> try exact h'.err _
    rename_i i
    obtain ⟨p, hp, hg⟩ := rec_ (i := i) rfl
    simp only [step, setCurrent, hg]
    split
    · refine ⟨.inl ⟨_, rfl⟩, ?_⟩
      cases c <;> exact ⟨h'.live, h'.std, h'.fits⟩
    · exact h'.err _

theorem safe_initial (files : Bytes → Option Bytes) (stdin : Bytes) (u : σ) : Safe 0 (initial files stdin u) := by
  refine ⟨?_, ⟨_, rfl, rfl, rfl, rfl⟩, ?_⟩
  · rintro j k ⟨p, hp, hk⟩
    match j, hp with
    | 0, hp => cases hp; cases hk; exact ⟨_, rfl, rfl⟩
    | 1, hp => cases hp; cases hk; exact ⟨_, rfl, rfl⟩
    | 2, hp => cases hp; cases hk; exact ⟨_, rfl, rfl⟩
    | n + 3, hp => simp [initial] at hp
  · intro j p hp hk
    match j, hp with
    | 0, hp => cases hp; cases hk
    | 1, hp => cases hp; cases hk
    | 2, hp => cases hp; cases hk
    | n + 3, hp => simp [initial] at hp

end Pscm
