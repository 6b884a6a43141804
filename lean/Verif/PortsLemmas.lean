import Verif.Ports
/-!
# Lemmas about the port layer
-/
namespace Pscm.Ports
open Rd (Bytes)
open Port (In Out)
variable {σ : Type} {W : World σ}

theorem getPort_eq {s : PS σ} {i : Nat} {p : PortRec} (h : s.ports[i]? = some p) : getPort s i = .ok p := by
  rw [getPort, h]

theorem getPort_cases (s : PS σ) (i : Nat) : (∃ p, s.ports[i]? = some p ∧ getPort s i = .ok p) ∨ (s.ports[i]? = none ∧ getPort s i = .ub) := by
  unfold getPort
  cases h : s.ports[i]? with
  | none => exact .inr ⟨rfl, rfl⟩
  | some p => exact .inl ⟨p, rfl, rfl⟩

theorem getStream_cases (s : PS σ) (k : Nat) :
    (∃ f, s.streams[k]? = some f ∧ f.isOpen = true ∧ getStream s k = .ok f) ∨
      ((∀ f, s.streams[k]? = some f → f.isOpen = false) ∧ getStream s k = .ub) := by
  unfold getStream
  cases h : s.streams[k]? with
  | none => exact .inr ⟨by simp, rfl⟩
  | some f =>
    cases ho : f.isOpen with
    | true => exact .inl ⟨f, rfl, ho, by simp [ho]⟩
    | false => exact .inr ⟨by intro g hg; cases hg; exact ho, by simp [ho]⟩

/-- The stream `k` of the port `i`. -/
def Owns (s : PS σ) (i k : Nat) : Prop := ∃ p, s.ports[i]? = some p ∧ p.file = some k

/-- The streams of different ports are different. -/
structure Tidy (s : PS σ) : Prop where
  inj : ∀ i j k, Owns s i k → Owns s j k → i = j
  lt : ∀ i k, Owns s i k → k < s.streams.length
  std : 3 ≤ s.streams.length
  out : ∀ i, Owns s i stdoutK → i = 2

/-- The operation on the state `s` leaves every port except those in `c` and their streams as they are (streams of no port may change
only if they are standard output). -/
structure Frame (c : Nat → Prop) (s s' : PS σ) : Prop where
  tidy : Tidy s → Tidy s'
  port : ∀ i p, ¬ c i → s.ports[i]? = some p → s'.ports[i]? = some p
  stream : Tidy s → ∀ i k, ¬ c i → Owns s i k → k ≠ stdoutK → s'.streams[k]? = s.streams[k]?
  old : ∀ i, i < s.ports.length → i < s'.ports.length

theorem Frame.refl (c : Nat → Prop) (s : PS σ) : Frame c s s := ⟨id, fun _ _ _ h => h, fun _ _ _ _ _ _ => rfl, fun _ h => h⟩

theorem Owns.of_port {s s' : PS σ} {i k : Nat} (h : Owns s i k) (hp : ∀ p, s.ports[i]? = some p → s'.ports[i]? = some p) : Owns s' i k := by
  obtain ⟨p, h1, h2⟩ := h
  exact ⟨p, hp p h1, h2⟩

theorem Frame.trans {c : Nat → Prop} {s s' s'' : PS σ} (h1 : Frame c s s') (h2 : Frame c s' s'') : Frame c s s'' where
  tidy := fun h => h2.tidy (h1.tidy h)
  port := fun i p hc hp => h2.port i p hc (h1.port i p hc hp)
  stream := fun ht i k hc ho hk => by
    rw [h2.stream (h1.tidy ht) i k hc (ho.of_port fun p hp => h1.port i p hc hp) hk, h1.stream ht i k hc ho hk]
  old := fun i h => h2.old i (h1.old i h)

/-- Only a stream changes: standard output or that of a port in `c`. -/
theorem Frame.ofStreams {c : Nat → Prop} {s : PS σ} {k : Nat} {g : Stream} {fs : Bytes → Option Bytes} {u : σ}
    (hk : k = stdoutK ∨ ∃ j, c j ∧ Owns s j k) :
    Frame c s { s with streams := s.streams.set k g, files := fs, user := u } where
  tidy := fun h => ⟨h.inj, fun i k' ho => by simpa using h.lt i k' ho, by simpa using h.std, h.out⟩
  port := fun _ _ _ h => h
  stream := fun ht i k' hc ho hk' => by
    simp only
    rw [List.getElem?_set_ne]
    rintro rfl
    rcases hk with rfl | ⟨j, hj, hoj⟩
    · exact hk' rfl
    · exact hc (ht.inj i j _ ho hoj ▸ hj)
  old := fun _ h => h

/-- Only the record of a port in `c` changes, and it keeps its stream or loses it. -/
theorem Frame.setPort {c : Nat → Prop} {s : PS σ} {j : Nat} {p q : PortRec} (hj : c j) (hp : s.ports[j]? = some p)
    (hf : q.file = p.file ∨ q.file = none) : Frame c s (setPort s j q) where
  tidy := fun h => by
    have key : ∀ i k, Owns (Ports.setPort s j q) i k → Owns s i k := by
      rintro i k ⟨r, h1, h2⟩
      simp only [Ports.setPort] at h1
      by_cases hij : j = i
      · subst hij
        have hlt : j < s.ports.length := (List.getElem?_eq_some_iff.mp hp).1
        rw [List.getElem?_set_self hlt] at h1
        cases h1
        rcases hf with hf | hf
        · exact ⟨p, hp, hf ▸ h2⟩
        · rw [hf] at h2; cases h2
      · rw [List.getElem?_set_ne hij] at h1
        exact ⟨r, h1, h2⟩
    exact ⟨fun a b k ha hb => h.inj a b k (key _ _ ha) (key _ _ hb), fun i k ho => h.lt i k (key _ _ ho), h.std,
      fun i ho => h.out i (key _ _ ho)⟩
  port := fun i r hc hr => by
    simp only [Ports.setPort]
    rw [List.getElem?_set_ne]
    · exact hr
    · rintro rfl; exact hc hj
  stream := fun _ _ _ _ _ _ => rfl
  old := fun i h => by simpa [Ports.setPort] using h

/-- A new port. -/
theorem Frame.append {c : Nat → Prop} {s : PS σ} {q : PortRec} {ns : List Stream} {fs : Bytes → Option Bytes}
    (hq : ∀ k, q.file = some k → k = s.streams.length ∧ ns ≠ []) :
    Frame c s { s with ports := s.ports ++ [q], streams := s.streams ++ ns, files := fs } where
  tidy := fun h => by
    have key : ∀ i k, Owns { s with ports := s.ports ++ [q], streams := s.streams ++ ns, files := fs } i k →
        Owns s i k ∨ (i = s.ports.length ∧ k = s.streams.length ∧ ns ≠ []) := by
      rintro i k ⟨r, h1, h2⟩
      simp only at h1
      by_cases hi : i < s.ports.length
      · rw [List.getElem?_append_left hi] at h1
        exact .inl ⟨r, h1, h2⟩
      · rw [List.getElem?_append_right (by omega)] at h1
        cases hd : i - s.ports.length with
        | zero => rw [hd] at h1; cases h1; exact .inr ⟨by omega, hq k h2⟩
        | succ m => rw [hd] at h1; simp at h1
    refine ⟨fun a b k ha hb => ?_, fun i k ho => ?_, ?_, fun i ho => ?_⟩
    · rcases key _ _ ha with ha | ⟨rfl, rfl, -⟩ <;> rcases key _ _ hb with hb | ⟨hb1, hb2, -⟩
      · exact h.inj a b k ha hb
      · exact absurd (h.lt _ _ ha) (by omega)
      · exact absurd (h.lt _ _ hb) (by omega)
      · exact hb1.symm
    · simp only [List.length_append]
      rcases key _ _ ho with ho | ⟨-, rfl, hne⟩
      · have := h.lt _ _ ho; omega
      · have := List.length_pos_iff.mpr hne; omega
    · simp only [List.length_append]; have := h.std; omega
    · rcases key _ _ ho with ho | ⟨-, hl, -⟩
      · exact h.out i ho
      · have := h.std; simp only [stdoutK] at hl; omega
  port := fun i p _ hp => by
    simp only
    rw [List.getElem?_append_left (List.getElem?_eq_some_iff.mp hp).1]
    exact hp
  stream := fun ht i k _ ho _ => by
    simp only
    rw [List.getElem?_append_left (ht.lt i k ho)]
  old := fun i h => by simp; omega

theorem Frame.user {c : Nat → Prop} (s : PS σ) (u : σ) : Frame c s { s with user := u } :=
  ⟨fun h => ⟨h.inj, h.lt, h.std, h.out⟩, fun _ _ _ h => h, fun _ _ _ _ _ _ => rfl, fun _ h => h⟩

theorem Frame.cur {c : Nat → Prop} (s : PS σ) (a b d : Nat) : Frame c s { s with curIn := a, curOut := b, curErr := d } :=
  ⟨fun h => ⟨h.inj, h.lt, h.std, h.out⟩, fun _ _ _ h => h, fun _ _ _ _ _ _ => rfl, fun _ h => h⟩

theorem fput_frame {c : Nat → Prop} {s : PS σ} {k : Nat} {bs : Bytes} (hk : k = stdoutK ∨ ∃ j, c j ∧ Owns s j k) :
    Frame c s (fput W s k bs).2 := by
  unfold fput
  rcases getStream_cases s k with ⟨f, -, -, h⟩ | ⟨-, h⟩ <;> rw [h]
  · exact Frame.ofStreams (u := s.user) hk
  · exact .refl c s

theorem fflush_frame {c : Nat → Prop} {s : PS σ} {k : Nat} (hk : k = stdoutK ∨ ∃ j, c j ∧ Owns s j k) : Frame c s (fflush s k).2 := by
  unfold fflush
  rcases getStream_cases s k with ⟨f, -, -, h⟩ | ⟨-, h⟩ <;> rw [h]
  · exact Frame.ofStreams (u := s.user) hk
  · exact .refl c s

theorem fclose_frame {c : Nat → Prop} {s : PS σ} {k : Nat} (hk : k = stdoutK ∨ ∃ j, c j ∧ Owns s j k) : Frame c s (fclose s k).2 := by
  unfold fclose
  rcases getStream_cases s k with ⟨f, -, -, h⟩ | ⟨-, h⟩ <;> rw [h]
  · exact Frame.ofStreams (u := s.user) hk
  · exact .refl c s

theorem callProc_frame {c : Nat → Prop} (s : PS σ) (f : Obj) (args : List Obj) : Frame c s (callProc W s f args).2 := by
  unfold callProc
  split
  · exact .refl c s
  · split
    · exact Frame.user s _
    · exact Frame.user s _
    · exact .refl c s

theorem callProc_ports (s : PS σ) (f : Obj) (args : List Obj) :
    (callProc W s f args).2.ports = s.ports ∧ (callProc W s f args).2.streams = s.streams ∧ (callProc W s f args).2.files = s.files := by
  unfold callProc
  split
  · exact ⟨rfl, rfl, rfl⟩
  · split
    · exact ⟨rfl, rfl, rfl⟩
    · exact ⟨rfl, rfl, rfl⟩
    · exact ⟨rfl, rfl, rfl⟩

theorem unspec_snd (x : Res Unit × PS σ) : (unspec x).2 = x.2 := by
  obtain ⟨r, s⟩ := x
  cases r <;> rfl

theorem intoBuffer_frame {c : Nat → Prop} {s : PS σ} {i : Nat} {p : PortRec} (hc : c i) (hp : s.ports[i]? = some p) (r : Res Out) :
    Frame c s (intoBuffer s i p r).2 := by
  cases r
  case ok o => exact Frame.setPort hc hp (.inl rfl)
  all_goals exact .refl c s

theorem readCharFrom_frame {c : Nat → Prop} {s : PS σ} {i : Nat} {p : PortRec} (hc : c i) (hp : s.ports[i]? = some p) :
    Frame c s (readCharFrom W s i p).2 := by
  unfold readCharFrom
  split
  · exact .refl c s
  · split
    · cases hk : p.file with
      | none => exact .refl c s
      | some k =>
        simp only
        rcases getStream_cases s k with ⟨f, -, -, h⟩ | ⟨-, h⟩ <;> rw [h]
        · exact Frame.ofStreams (u := s.user) (.inr ⟨i, hc, p, hp, hk⟩)
        · exact .refl c s
    · exact Frame.setPort hc hp (.inl rfl)
    · split
      · split
        · exact .refl c s
        · rename_i g _
          have := callProc_frame (W := W) (c := c) s g []
          revert this
          generalize callProc W s g [] = x
          rcases x with ⟨_ | _ | _ | _ | _, s'⟩
          case ok a => cases a <;> exact id
          all_goals exact id
      · exact .refl c s
    · exact .refl c s

theorem writeCharTo_frame {c : Nat → Prop} {s : PS σ} {i : Nat} {p : PortRec} (hc : c i) (hp : s.ports[i]? = some p) (b : UInt8) :
    Frame c s (writeCharTo W s i p b).2 := by
  unfold writeCharTo
  split
  · exact .refl c s
  · split
    · cases hk : p.file with
      | none => exact .refl c s
      | some k => exact fput_frame (.inr ⟨i, hc, p, hp, hk⟩)
    · exact intoBuffer_frame hc hp _
    · split
      · exact .refl c s
      · split
        · exact .refl c s
        · rename_i f _
          have := callProc_frame (W := W) (c := c) s f [charObj b]
          revert this
          generalize callProc W s f [charObj b] = x
          rcases x with ⟨_ | _ | _ | _ | _, s'⟩ <;> exact id
    · exact .refl c s

theorem writeStringTo_frame {c : Nat → Prop} {s : PS σ} {i : Nat} {p : PortRec} (hc : c i) (hp : s.ports[i]? = some p) (t : Bytes) :
    Frame c s (writeStringTo W s i p t).2 := by
  unfold writeStringTo
  split
  · exact .refl c s
  · split
    · cases hk : p.file with
      | none => exact .refl c s
      | some k => exact fput_frame (.inr ⟨i, hc, p, hp, hk⟩)
    · exact intoBuffer_frame hc hp _
    · exact .refl c s

theorem closePort_frame {c : Nat → Prop} {s : PS σ} {i : Nat} {p : PortRec} (hc : c i) (hp : s.ports[i]? = some p) :
    Frame c s (closePort W s i p).2 := by
  unfold closePort
  split
  · exact .refl c s
  · split
    · split
      · exact Frame.setPort hc hp (.inl rfl)
      · rename_i f _
        have h1 := callProc_frame (W := W) (c := c) s f []
        have h2 := (callProc_ports (W := W) s f []).1
        revert h1 h2
        generalize callProc W s f [] = x
        rcases x with ⟨_ | _ | _ | _ | _, s'⟩
        case ok a => exact fun h1 h2 => h1.trans (Frame.setPort (p := p) hc (by rw [h2]; exact hp) (.inl rfl))
        all_goals exact fun h _ => h
    · split
      · rename_i k hk
        have h1 := fclose_frame (c := c) (s := s) (k := k) (.inr ⟨i, hc, p, hp, hk⟩)
        have h2 : (fclose s k).2.ports = s.ports := by
          unfold fclose
          rcases getStream_cases s k with ⟨f, -, -, h⟩ | ⟨-, h⟩ <;> rw [h] <;> rfl
        revert h1 h2
        generalize fclose s k = x
        rcases x with ⟨_ | _ | _ | _ | _, s'⟩
        case ok a => exact fun h1 h2 => h1.trans (Frame.setPort (p := p) hc (by rw [h2]; exact hp) (.inr rfl))
        all_goals exact fun h _ => h
      · exact Frame.setPort hc hp (.inl rfl)

/-- The argument of an operation on a port. -/
def Op.arg : Op → Arg
  | .readChar a | .peekChar a | .read a | .ready a | .writeChar _ a | .print _ _ a | .newline a | .flush a | .getOutput a
  | .closeIn a | .closeOut a | .isIn a | .isOut a | .setCurrent _ a => a
  | _ => .absent

/-- An operation touches only the port that is its argument, that port's stream and standard output. -/
theorem step_frame (s : PS σ) (o : Op) : Frame (fun i => o.arg = .port i) s (step W s o).2 := by
  have nothing : Frame (fun i => o.arg = .port i) s s := .refl _ s
  cases o with
  | openIn n =>
    simp only [step, openInputFile]
    split
    · exact nothing
    · exact Frame.append (s := s) (ns := [_]) (fs := s.files) (by rintro k hk; cases hk; exact ⟨rfl, by simp⟩)
  | openOut n =>
    simp only [step, openOutputFile]
    split
    · exact Frame.append (s := s) (ns := [_]) (by rintro k hk; cases hk; exact ⟨rfl, by simp⟩)
    · exact nothing
  | openInStr t =>
    have := Frame.append (c := fun i => (Op.openInStr t).arg = .port i) (s := s) (ns := []) (fs := s.files)
      (q := { blank .strIn true with inp := Port.openIn t }) (by intro k hk; cases hk)
    simpa [step, openInputString, newPort] using this
  | openOutStr =>
    have := Frame.append (c := fun i => Op.openOutStr.arg = .port i) (s := s) (ns := []) (fs := s.files)
      (q := { blank .strOut false with out := Port.openOut }) (by intro k hk; cases hk)
    simpa [step, openOutputString, newPort] using this
  | soft ps m =>
    simp only [step, makeSoftPort]
    split
    · exact nothing
    · split
      · have := Frame.append (c := fun i => (Op.soft ps m).arg = .port i) (s := s) (ns := []) (fs := s.files)
          (q := { blank .soft (m.contains 114) with procs := ps, modes := m }) (by intro k hk; cases hk)
        simpa [newPort] using this
      · exact nothing
  | readChar a =>
    simp only [step]
    cases a <;> try exact nothing
    rename_i i
    simp only [readChar]
    rcases getPort_cases s i with ⟨p, hp, hg⟩ | ⟨-, hg⟩ <;> rw [hg]
    · simp only
      generalize (if p.kind = Kind.soft then hasMode p 114 else p.isInput) = b
      cases b
      · exact nothing
      · have := readCharFrom_frame (W := W) (c := fun j => (Op.readChar (.port i)).arg = .port j) (s := s) (i := i) (p := p) rfl hp
        simp only [if_true]
        revert this
        generalize readCharFrom W s i p = x
        rcases x with ⟨_ | _ | _ | _ | _, s'⟩ <;> exact id
    · exact nothing
  | peekChar a =>
    simp only [step]
    cases a <;> try exact nothing
    rename_i i
    simp only [peekChar]
    rcases getPort_cases s i with ⟨p, hp, hg⟩ | ⟨-, hg⟩ <;> rw [hg]
    · simp only
      split
      · split <;> exact nothing
      · exact nothing
    · exact nothing
  | read a =>
    simp only [step]
    cases a <;> try exact nothing
    rename_i i
    simp only [read]
    rcases getPort_cases s i with ⟨p, hp, hg⟩ | ⟨-, hg⟩ <;> rw [hg]
    · simp only
      split
      · split
        · exact nothing
        · split
          · cases hk : p.file with
            | none => exact nothing
            | some k =>
              simp only
              rcases getStream_cases s k with ⟨f, -, -, h⟩ | ⟨-, h⟩ <;> rw [h]
              · exact Frame.ofStreams (u := s.user) (.inr ⟨i, rfl, p, hp, hk⟩)
              · exact nothing
          · exact Frame.setPort rfl hp (.inl rfl)
          · exact nothing
      · exact nothing
    · exact nothing
  | ready a =>
    simp only [step]
    cases a <;> try exact nothing
    rename_i i
    simp only [charReady]
    rcases getPort_cases s i with ⟨p, hp, hg⟩ | ⟨-, hg⟩ <;> rw [hg]
    · simp only
      split
      · split
        · exact nothing
        · split
          · split <;> exact nothing
          · split <;> exact nothing
          · exact nothing
      · exact nothing
    · exact nothing
  | writeChar c a =>
    simp only [step]
    cases a with
    | absent => simp only [writeChar, unspec_snd]; exact fput_frame (.inl rfl)
    | other => exact nothing
    | port i =>
      simp only [writeChar]
      rcases getPort_cases s i with ⟨p, hp, hg⟩ | ⟨-, hg⟩ <;> rw [hg]
      · simp only
        generalize (if p.kind = Kind.soft then hasMode p 119 else !p.isInput) = b
        cases b
        · exact nothing
        · simp only [if_true, unspec_snd]
          exact writeCharTo_frame (by exact rfl) hp c
      · exact nothing
  | print m d a =>
    simp only [step]
    cases a with
    | absent => simp only [print, unspec_snd]; exact fput_frame (.inl rfl)
    | other => exact nothing
    | port i =>
      simp only [print]
      rcases getPort_cases s i with ⟨p, hp, hg⟩ | ⟨-, hg⟩ <;> rw [hg]
      · simp only
        split
        · exact nothing
        · simp only [unspec_snd]
          exact writeStringTo_frame (by exact rfl) hp _
      · exact nothing
  | newline a =>
    simp only [step]
    cases a with
    | absent => simp only [newline, unspec_snd]; exact fput_frame (.inl rfl)
    | other => exact nothing
    | port i =>
      simp only [newline]
      rcases getPort_cases s i with ⟨p, hp, hg⟩ | ⟨-, hg⟩ <;> rw [hg]
      · simp only
        split
        · exact nothing
        · split
          · exact nothing
          · simp only [unspec_snd]
            exact writeCharTo_frame (by exact rfl) hp _
      · exact nothing
  | flush a =>
    simp only [step]
    cases a with
    | absent => simp only [forceOutput, unspec_snd]; exact fflush_frame (.inl rfl)
    | other => exact nothing
    | port i =>
      simp only [forceOutput]
      rcases getPort_cases s i with ⟨p, hp, hg⟩ | ⟨-, hg⟩ <;> rw [hg]
      · simp only
        split
        · exact nothing
        · split
          · exact nothing
          · split
            · cases hk : p.file with
              | none => exact nothing
              | some k =>
                simp only [unspec_snd]
                exact fflush_frame (.inr ⟨i, rfl, p, hp, hk⟩)
            · split
              · exact nothing
              · rename_i f _
                have := callProc_frame (W := W) (c := fun j => (Op.flush (.port i)).arg = .port j) s f []
                revert this
                generalize callProc W s f [] = x
                rcases x with ⟨_ | _ | _ | _ | _, s'⟩ <;> exact id
            · exact nothing
      · exact nothing
  | getOutput a =>
    simp only [step]
    cases a <;> try exact nothing
    rename_i i
    simp only [getOutputString]
    rcases getPort_cases s i with ⟨p, hp, hg⟩ | ⟨-, hg⟩ <;> rw [hg]
    · simp only
      split <;> exact nothing
    · exact nothing
  | closeIn a =>
    simp only [step]
    cases a <;> try exact nothing
    rename_i i
    simp only [closeInputPort]
    rcases getPort_cases s i with ⟨p, hp, hg⟩ | ⟨-, hg⟩ <;> rw [hg]
    · simp only
      split
      · exact closePort_frame rfl hp
      · exact nothing
    · exact nothing
  | closeOut a =>
    simp only [step]
    cases a <;> try exact nothing
    rename_i i
    simp only [closeOutputPort]
    rcases getPort_cases s i with ⟨p, hp, hg⟩ | ⟨-, hg⟩ <;> rw [hg]
    · simp only
      split
      · exact nothing
      · exact closePort_frame rfl hp
    · exact nothing
  | isIn a =>
    simp only [step]
    cases a <;> try exact nothing
    rename_i i
    simp only [isInputPort]
    rcases getPort_cases s i with ⟨p, hp, hg⟩ | ⟨-, hg⟩ <;> rw [hg] <;> exact nothing
  | isOut a =>
    simp only [step]
    cases a <;> try exact nothing
    rename_i i
    simp only [isOutputPort]
    rcases getPort_cases s i with ⟨p, hp, hg⟩ | ⟨-, hg⟩ <;> rw [hg] <;> exact nothing
  | current c => exact nothing
  | setCurrent c a =>
    simp only [step]
    cases a <;> try exact nothing
    rename_i i
    simp only [setCurrent]
    rcases getPort_cases s i with ⟨p, hp, hg⟩ | ⟨-, hg⟩ <;> rw [hg]
    · simp only
      split
      · cases c
        · exact Frame.cur s i s.curOut s.curErr
        · exact Frame.cur s s.curIn i s.curErr
        · exact Frame.cur s s.curIn s.curOut i
      · exact nothing
    · exact nothing

/-! ## Two states that agree on a port -/

/-- The port `i`, no soft port, is the same in both states and so is its stream. -/
structure Same (i : Nat) (s t : PS σ) (p : PortRec) : Prop where
  left : s.ports[i]? = some p
  right : t.ports[i]? = some p
  stream : ∀ k, p.file = some k → s.streams[k]? = t.streams[k]?
  hard : p.kind ≠ .soft

theorem Same.getStream {i : Nat} {s t : PS σ} {p : PortRec} (h : Same i s t p) {k : Nat} (hk : p.file = some k) :
    getStream s k = Ports.getStream t k := by
  unfold Ports.getStream
  rw [h.stream k hk]

/-- The result of an operation on the port in the two states: the same answer, and the states still agree. -/
def Agree {α : Type} (i : Nat) (x y : Res α × PS σ) : Prop := x.1 = y.1 ∧ ∃ q, Same i x.2 y.2 q

theorem Same.keep {α : Type} {i : Nat} {s t : PS σ} {p : PortRec} (h : Same i s t p) (r : Res α) : Agree i (r, s) (r, t) := ⟨rfl, p, h⟩

theorem Same.setPort {i : Nat} {s t : PS σ} {p : PortRec} (h : Same i s t p) {q : PortRec} (hq : q.kind = p.kind)
    (hf : q.file = p.file ∨ q.file = none) : Same i (setPort s i q) (setPort t i q) q where
  left := by
    simp only [Ports.setPort]
    rw [List.getElem?_set_self (List.getElem?_eq_some_iff.mp h.left).1]
  right := by
    simp only [Ports.setPort]
    rw [List.getElem?_set_self (List.getElem?_eq_some_iff.mp h.right).1]
  stream := fun k hk => by
    rcases hf with hf | hf
    · exact h.stream k (hf ▸ hk)
    · rw [hf] at hk; cases hk
  hard := by rw [hq]; exact h.hard

theorem Same.setStream {i : Nat} {s t : PS σ} {p : PortRec} (h : Same i s t p) {k : Nat} (hk : p.file = some k) (g : Stream)
    (fs ft : Bytes → Option Bytes) :
    Same i { s with streams := s.streams.set k g, files := fs } { t with streams := t.streams.set k g, files := ft } p where
  left := h.left
  right := h.right
  stream := fun k' hk' => by
    rw [hk] at hk'; cases hk'
    have := h.stream k hk
    simp only
    rw [List.getElem?_set, List.getElem?_set]
    by_cases hs : k < s.streams.length
    · have : k < t.streams.length := by
        rw [List.getElem?_eq_getElem hs] at this
        exact (List.getElem?_eq_some_iff.mp this.symm).1
      simp [hs, this]
    · have : ¬ k < t.streams.length := by
        intro hlt
        rw [List.getElem?_eq_none (by omega), List.getElem?_eq_getElem hlt] at this
        cases this
      simp [hs, this]
  hard := h.hard

theorem Same.fput {i : Nat} {s t : PS σ} {p : PortRec} (h : Same i s t p) {k : Nat} (hk : p.file = some k) (bs : Bytes) :
    Agree i (fput W s k bs) (fput W t k bs) := by
  unfold Ports.fput
  rw [h.getStream hk]
  rcases getStream_cases t k with ⟨f, -, -, e⟩ | ⟨-, e⟩ <;> rw [e]
  · exact ⟨rfl, p, h.setStream hk _ _ _⟩
  · exact h.keep _

theorem Same.fflush {i : Nat} {s t : PS σ} {p : PortRec} (h : Same i s t p) {k : Nat} (hk : p.file = some k) :
    Agree i (fflush s k) (fflush t k) := by
  unfold Ports.fflush
  rw [h.getStream hk]
  rcases getStream_cases t k with ⟨f, -, -, e⟩ | ⟨-, e⟩ <;> rw [e]
  · exact ⟨rfl, p, h.setStream hk _ _ _⟩
  · exact h.keep _

theorem Same.fclose {i : Nat} {s t : PS σ} {p : PortRec} (h : Same i s t p) {k : Nat} (hk : p.file = some k) :
    (fclose s k).1 = (fclose t k).1 ∧ Same i (fclose s k).2 (fclose t k).2 p := by
  unfold Ports.fclose
  rw [h.getStream hk]
  rcases getStream_cases t k with ⟨f, -, -, e⟩ | ⟨-, e⟩ <;> rw [e]
  · exact ⟨rfl, h.setStream hk _ _ _⟩
  · exact ⟨rfl, h⟩

theorem Agree.unspec {i : Nat} {x y : Res Unit × PS σ} (h : Agree i x y) : Agree i (unspec x) (unspec y) := by
  obtain ⟨r, s⟩ := x
  obtain ⟨r', t⟩ := y
  obtain ⟨h1, h2⟩ := h
  simp only at h1
  subst h1
  cases r <;> exact ⟨rfl, h2⟩

theorem Same.intoBuffer {i : Nat} {s t : PS σ} {p : PortRec} (h : Same i s t p) (r : Res Out) :
    Agree i (intoBuffer s i p r) (intoBuffer t i p r) := by
  cases r
  case ok o => exact ⟨rfl, _, h.setPort rfl (.inl rfl)⟩
  all_goals exact h.keep _

theorem Same.writeCharTo {i : Nat} {s t : PS σ} {p : PortRec} (h : Same i s t p) (c : UInt8) :
    Agree i (writeCharTo W s i p c) (writeCharTo W t i p c) := by
  unfold Ports.writeCharTo
  split
  · exact h.keep _
  · split
    · cases hk : p.file with
      | none => exact h.keep _
      | some k => exact h.fput hk _
    · exact h.intoBuffer _
    · rename_i hs
      exact absurd hs h.hard
    · exact h.keep _

theorem Same.writeStringTo {i : Nat} {s t : PS σ} {p : PortRec} (h : Same i s t p) (b : Bytes) :
    Agree i (writeStringTo W s i p b) (writeStringTo W t i p b) := by
  unfold Ports.writeStringTo
  split
  · exact h.keep _
  · split
    · cases hk : p.file with
      | none => exact h.keep _
      | some k => exact h.fput hk _
    · exact h.intoBuffer _
    · exact h.keep _

theorem Same.readCharFrom {i : Nat} {s t : PS σ} {p : PortRec} (h : Same i s t p) :
    Agree i (readCharFrom W s i p) (readCharFrom W t i p) := by
  unfold Ports.readCharFrom
  split
  · exact h.keep _
  · split
    · cases hk : p.file with
      | none => exact h.keep _
      | some k =>
        simp only
        rw [h.getStream hk]
        rcases getStream_cases t k with ⟨f, -, -, e⟩ | ⟨-, e⟩ <;> rw [e]
        · exact ⟨rfl, p, h.setStream hk _ _ _⟩
        · exact h.keep _
    · exact ⟨rfl, _, h.setPort rfl (.inl rfl)⟩
    · rename_i hs
      exact absurd hs h.hard
    · exact h.keep _

theorem Same.peekCharFrom {i : Nat} {s t : PS σ} {p : PortRec} (h : Same i s t p) : peekCharFrom s p = peekCharFrom t p := by
  unfold Ports.peekCharFrom
  split
  · rfl
  · split
    · cases hk : p.file with
      | none => rfl
      | some k => simp only; rw [h.getStream hk]
    · rfl
    · rfl

theorem Same.closePort {i : Nat} {s t : PS σ} {p : PortRec} (h : Same i s t p) :
    Agree i (closePort W s i p) (closePort W t i p) := by
  unfold Ports.closePort
  split
  · exact h.keep _
  · split
    · rename_i hs
      exact absurd hs h.hard
    · split
      · rename_i k hk
        obtain ⟨h1, h2⟩ := h.fclose hk
        revert h1 h2
        generalize Ports.fclose s k = x
        generalize Ports.fclose t k = y
        obtain ⟨r, s'⟩ := x
        obtain ⟨r', t'⟩ := y
        intro h1 h2
        simp only at h1
        subst h1
        cases r
        case ok a => exact ⟨rfl, _, h2.setPort rfl (.inr rfl)⟩
        all_goals exact h2.keep _
      · exact ⟨rfl, _, h.setPort rfl (.inl rfl)⟩

/-- An operation on a port gives the same answer in two states that agree on the port. -/
theorem Same.step {i : Nat} {s t : PS σ} {p : PortRec} (h : Same i s t p) {o : Op} (ho : o.arg = .port i) (hc : ∀ c a, o ≠ .setCurrent c a) :
    Agree i (step W s o) (step W t o) := by
  have gs := getPort_eq h.left
  have gt := getPort_eq h.right
  cases o <;> simp only [Op.arg] at ho <;> (first | (exact absurd ho (by simp)) | subst ho) <;> simp only [Ports.step]
  case readChar =>
    simp only [readChar, gs, gt]
    generalize (if p.kind = Kind.soft then hasMode p 114 else p.isInput) = b
    cases b
    · exact h.keep _
    · have := h.readCharFrom (W := W)
      revert this
      generalize Ports.readCharFrom W s i p = x
      generalize Ports.readCharFrom W t i p = y
      obtain ⟨r, s'⟩ := x
      obtain ⟨r', t'⟩ := y
      rintro ⟨h1, h2⟩
      simp only at h1
      subst h1
      cases r <;> exact ⟨rfl, h2⟩
  case peekChar =>
    simp only [peekChar, gs, gt, h.peekCharFrom]
    split
    · split <;> exact h.keep _
    · exact h.keep _
  case read =>
    simp only [read, gs, gt]
    split
    · split
      · exact h.keep _
      · split
        · cases hk : p.file with
          | none => exact h.keep _
          | some k =>
            simp only
            rw [h.getStream hk]
            rcases getStream_cases t k with ⟨f, -, -, e⟩ | ⟨-, e⟩ <;> rw [e]
            · exact ⟨rfl, p, h.setStream hk _ _ _⟩
            · exact h.keep _
        · exact ⟨rfl, _, h.setPort rfl (.inl rfl)⟩
        · exact h.keep _
    · exact h.keep _
  case ready =>
    simp only [charReady, gs, gt, h.peekCharFrom]
    split
    · split
      · exact h.keep _
      · split
        · split <;> exact h.keep _
        · split <;> exact h.keep _
        · exact h.keep _
    · exact h.keep _
  case writeChar c =>
    simp only [writeChar, gs, gt]
    generalize (if p.kind = Kind.soft then hasMode p 119 else !p.isInput) = b
    cases b
    · exact h.keep _
    · exact (h.writeCharTo c).unspec
  case print m d =>
    simp only [print, gs, gt]
    split
    · exact h.keep _
    · exact (h.writeStringTo _).unspec
  case newline =>
    simp only [newline, gs, gt]
    split
    · exact h.keep _
    · split
      · exact h.keep _
      · exact (h.writeCharTo _).unspec
  case flush =>
    simp only [forceOutput, gs, gt]
    split
    · exact h.keep _
    · split
      · exact h.keep _
      · split
        · cases hk : p.file with
          | none => exact h.keep _
          | some k => exact (h.fflush hk).unspec
        · rename_i hs
          exact absurd hs h.hard
        · exact h.keep _
  case getOutput =>
    simp only [getOutputString, gs, gt]
    split <;> exact h.keep _
  case closeIn =>
    simp only [closeInputPort, gs, gt]
    split
    · exact h.closePort
    · exact h.keep _
  case closeOut =>
    simp only [closeOutputPort, gs, gt]
    split
    · exact h.keep _
    · exact h.closePort
  case isIn =>
    simp only [isInputPort, gs, gt]
    exact h.keep _
  case isOut =>
    simp only [isOutputPort, gs, gt]
    exact h.keep _
  case setCurrent c => exact absurd rfl (hc _ _)

end Pscm.Ports
