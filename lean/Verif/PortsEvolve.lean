import Verif.PortsLemmas
/-!
# Lemmas about the port layer: what never changes in a port and in a stream
-/
namespace Pscm.Ports
open Rd (Bytes)
open Port (In Out)
variable {σ : Type} {W : World σ}

/-- What an operation may do to the ports and streams there are. -/
structure Evolves (s s' : PS σ) : Prop where
  ports : ∀ (j : Nat) (p : PortRec), s.ports[j]? = some p → ∃ p' : PortRec, s'.ports[j]? = some p' ∧ p'.kind = p.kind ∧ p'.isInput = p.isInput ∧ p'.procs = p.procs ∧
    p'.modes = p.modes ∧ (p'.file = p.file ∨ p'.file = none) ∧ (p.closed = true → p' = p)
  streams : ∀ (k : Nat) (f : Stream), s.streams[k]? = some f → ∃ f' : Stream, s'.streams[k]? = some f' ∧ f'.path = f.path ∧
    (f.pend = [] → f'.pend ≠ [] → k = stdoutK ∨ ∃ (j : Nat) (p : PortRec), s.ports[j]? = some p ∧ p.kind = .fileOut ∧ p.file = some k)
  fresh : ∀ (j : Nat) (p : PortRec) (k : Nat) (f : Stream), s.ports[j]? = none → s'.ports[j]? = some p → p.file = some k → s'.streams[k]? = some f → f.pend = []

theorem Evolves.refl (s : PS σ) : Evolves s s where
  ports := fun _ p h => ⟨p, h, rfl, rfl, rfl, rfl, .inl rfl, fun _ => rfl⟩
  streams := fun _ f h => ⟨f, h, rfl, fun h1 h2 => absurd h1 h2⟩
  fresh := fun _ _ _ _ h1 h2 => by rw [h1] at h2; cases h2

theorem Evolves.user (s : PS σ) (u : σ) : Evolves s { s with user := u } := ⟨(refl s).ports, (refl s).streams, (refl s).fresh⟩

theorem Evolves.cur (s : PS σ) (a b c : Nat) : Evolves s { s with curIn := a, curOut := b, curErr := c } :=
  ⟨(refl s).ports, (refl s).streams, (refl s).fresh⟩

theorem Evolves.setPort {s : PS σ} {i : Nat} {p q : PortRec} (hp : s.ports[i]? = some p) (h1 : q.kind = p.kind) (h2 : q.isInput = p.isInput)
    (h3 : q.procs = p.procs) (h4 : q.modes = p.modes) (h5 : q.file = p.file ∨ q.file = none) (h6 : p.closed ≠ true) (u : σ) :
    Evolves s { setPort s i q with user := u } where
  ports := fun j r hr => by
    simp only [Ports.setPort]
    by_cases hj : i = j
    · subst hj
      rw [hp] at hr; cases hr
      exact ⟨q, List.getElem?_set_self (List.getElem?_eq_some_iff.mp hp).1, h1, h2, h3, h4, h5, fun h => absurd h h6⟩
    · rw [List.getElem?_set_ne hj]
      exact ⟨r, hr, rfl, rfl, rfl, rfl, .inl rfl, fun _ => rfl⟩
  streams := fun _ f h => ⟨f, h, rfl, fun h1 h2 => absurd h1 h2⟩
  fresh := fun j r k f hn hr _ _ => by
    simp only [Ports.setPort] at hr
    have := (List.getElem?_eq_some_iff.mp hr).1
    rw [List.length_set] at this
    rw [List.getElem?_eq_getElem this] at hn
    cases hn

theorem Evolves.setStream {s : PS σ} {k : Nat} {f g : Stream} (hf : s.streams[k]? = some f) (h1 : g.path = f.path)
    (h2 : f.pend = [] → g.pend ≠ [] → k = stdoutK ∨ ∃ (j : Nat) (p : PortRec), s.ports[j]? = some p ∧ p.kind = .fileOut ∧ p.file = some k)
    (fs : Bytes → Option Bytes) : Evolves s { s with streams := s.streams.set k g, files := fs } where
  ports := (refl s).ports
  streams := fun k' f' h => by
    simp only
    by_cases hk : k = k'
    · subst hk
      rw [hf] at h; cases h
      exact ⟨g, List.getElem?_set_self (List.getElem?_eq_some_iff.mp hf).1, h1, h2⟩
    · rw [List.getElem?_set_ne hk]
      exact ⟨f', h, rfl, fun a b => absurd a b⟩
  fresh := fun j p k' f' h h' => by rw [h] at h'; cases h'

theorem Evolves.append {s : PS σ} {q : PortRec} {ns : List Stream} {fs : Bytes → Option Bytes}
    (hq : ∀ k, q.file = some k → k = s.streams.length) (hn : ∀ f ∈ ns, f.pend = []) :
    Evolves s { s with ports := s.ports ++ [q], streams := s.streams ++ ns, files := fs } where
  ports := fun j p h => ⟨p, by simp only; rw [List.getElem?_append_left (List.getElem?_eq_some_iff.mp h).1]; exact h, rfl, rfl, rfl, rfl, .inl rfl, fun _ => rfl⟩
  streams := fun k f h => ⟨f, by simp only; rw [List.getElem?_append_left (List.getElem?_eq_some_iff.mp h).1]; exact h, rfl, fun a b => absurd a b⟩
  fresh := fun j p k f h h' hk hf => by
    simp only at h' hf
    have hj : s.ports.length ≤ j := by
      rcases Nat.lt_or_ge j s.ports.length with hl | hl
      · rw [List.getElem?_eq_getElem hl] at h; cases h
      · exact hl
    rw [List.getElem?_append_right hj] at h'
    cases hd : j - s.ports.length with
    | zero =>
      rw [hd] at h'; cases h'
      rw [hq k hk, List.getElem?_append_right (Nat.le_refl _)] at hf
      exact hn f (List.mem_of_getElem? hf)
    | succ m => rw [hd] at h'; simp at h'

theorem drain_evolves {s : PS σ} {k n : Nat} {f g : Stream} (hf : s.streams[k]? = some f) (h1 : g.path = f.path)
    (h2 : g.pend = f.pend ∨ k = stdoutK ∨ ∃ (j : Nat) (p : PortRec), s.ports[j]? = some p ∧ p.kind = .fileOut ∧ p.file = some k) : Evolves s (drain s k g n) :=
  Evolves.setStream (g := { g with done := g.done + (g.pend.take n).length, pend := g.pend.drop n }) hf h1 (fun ha hb => h2.resolve_left fun h => hb (by simp [h, ha])) _

theorem fput_evolves {s : PS σ} {k : Nat} {bs : Bytes}
    (h2 : k = stdoutK ∨ ∃ (j : Nat) (p : PortRec), s.ports[j]? = some p ∧ p.kind = .fileOut ∧ p.file = some k) : Evolves s (fput W s k bs).2 := by
  unfold fput
  rcases getStream_cases s k with ⟨f, hs, -, h⟩ | ⟨-, h⟩ <;> rw [h]
  · exact drain_evolves (f := f) (g := { f with pend := f.pend ++ bs }) hs rfl (.inr h2)
  · exact .refl _

theorem fflush_evolves {s : PS σ} {k : Nat} : Evolves s (fflush s k).2 := by
  unfold fflush
  rcases getStream_cases s k with ⟨f, hs, -, h⟩ | ⟨-, h⟩ <;> rw [h]
  · exact drain_evolves hs rfl (.inl rfl)
  · exact .refl _

theorem callProc_evolves (s : PS σ) (f : Obj) (args : List Obj) : Evolves s (callProc W s f args).2 := by
  unfold callProc
  split
  · exact .refl _
  · split
    · exact .user s _
    · exact .user s _
    · exact .refl _

theorem intoBuffer_evolves {s : PS σ} {i : Nat} {p : PortRec} (hp : s.ports[i]? = some p) (hc : p.closed ≠ true) (r : Res Out) :
    Evolves s (intoBuffer s i p r).2 := by
  cases r
  case ok o => exact Evolves.setPort (q := { p with out := o }) (u := s.user) hp rfl rfl rfl rfl (.inl rfl) hc
  all_goals exact .refl _

theorem writeCharTo_evolves {s : PS σ} {i : Nat} {p : PortRec} (hp : s.ports[i]? = some p) (b : UInt8) : Evolves s (writeCharTo W s i p b).2 := by
  unfold writeCharTo
  split
  · exact .refl _
  · rename_i hc
    split
    · rename_i hkind
      cases hk : p.file with
      | none => exact .refl _
      | some k => exact fput_evolves (.inr ⟨i, p, hp, hkind, hk⟩)
    · exact intoBuffer_evolves hp hc _
    · split
      · exact .refl _
      · split
        · exact .refl _
        · rename_i f _
          have := callProc_evolves (W := W) s f [charObj b]
          revert this
          generalize callProc W s f [charObj b] = x
          rcases x with ⟨_ | _ | _ | _ | _, s'⟩ <;> exact id
    · exact .refl _

theorem writeStringTo_evolves {s : PS σ} {i : Nat} {p : PortRec} (hp : s.ports[i]? = some p) (b : Bytes) : Evolves s (writeStringTo W s i p b).2 := by
  unfold writeStringTo
  split
  · exact .refl _
  · rename_i hc
    split
    · rename_i hkind
      cases hk : p.file with
      | none => exact .refl _
      | some k => exact fput_evolves (.inr ⟨i, p, hp, hkind, hk⟩)
    · exact intoBuffer_evolves hp hc _
    · exact .refl _

theorem readCharFrom_evolves {s : PS σ} {i : Nat} {p : PortRec} (hp : s.ports[i]? = some p) : Evolves s (readCharFrom W s i p).2 := by
  unfold readCharFrom
  split
  · exact .refl _
  · rename_i hc
    split
    · cases hk : p.file with
      | none => exact .refl _
      | some k =>
        simp only
        rcases getStream_cases s k with ⟨f, hs, -, h⟩ | ⟨-, h⟩ <;> rw [h]
        · exact Evolves.setStream (g := { f with inp := (Port.readChar f.inp).2 }) (fs := s.files) hs rfl (fun a b => absurd a b)
        · exact .refl _
    · exact Evolves.setPort (q := { p with inp := (Port.readChar p.inp).2 }) (u := s.user) hp rfl rfl rfl rfl (.inl rfl) hc
    · split
      · split
        · exact .refl _
        · rename_i g _
          have := callProc_evolves (W := W) s g []
          revert this
          generalize callProc W s g [] = x
          rcases x with ⟨_ | _ | _ | _ | _, s'⟩
          case ok a => cases a <;> exact id
          all_goals exact id
      · exact .refl _
    · exact .refl _

theorem closePort_evolves {s : PS σ} {i : Nat} {p : PortRec} (hp : s.ports[i]? = some p) : Evolves s (closePort W s i p).2 := by
  unfold closePort
  split
  · exact .refl _
  · rename_i hc
    split
    · split
      · exact Evolves.setPort (q := { p with closed := true }) (u := s.user) hp rfl rfl rfl rfl (.inl rfl) hc
      · rename_i f _
        have h1 := callProc_evolves (W := W) s f []
        have h2 : ∃ u, (callProc W s f []).2 = { s with user := u } := by
          unfold callProc
          split
          · exact ⟨s.user, rfl⟩
          · split
            · exact ⟨_, rfl⟩
            · exact ⟨_, rfl⟩
            · exact ⟨s.user, rfl⟩
        revert h1 h2
        generalize callProc W s f [] = x
        rcases x with ⟨_ | _ | _ | _ | _, s'⟩
        case ok a =>
          rintro - ⟨u, rfl⟩
          exact Evolves.setPort (q := { p with closed := true }) (u := u) hp rfl rfl rfl rfl (.inl rfl) hc
        all_goals exact fun h _ => h
    · cases hk : p.file with
      | none => exact Evolves.setPort (q := { p with closed := true }) (u := s.user) hp rfl rfl rfl rfl (.inl rfl) hc
      | some k =>
        simp only [fclose]
        rcases getStream_cases s k with ⟨f, hs, -, h⟩ | ⟨-, h⟩ <;> rw [h]
        · simp only
          have h1 := drain_evolves (s := s) (k := k) (n := f.pend.length) (g := { f with isOpen := false }) hs rfl (.inl rfl)
          have h2 := Evolves.setPort (q := { p with file := none, closed := true }) (u := s.user) hp rfl rfl rfl rfl (.inr rfl) hc
          refine ⟨h2.ports, h1.streams, fun j r k' f' hn hr _ _ => ?_⟩
          simp only [markClosed, Ports.setPort, drain] at hr
          have := (List.getElem?_eq_some_iff.mp hr).1
          rw [List.length_set] at this
          rw [List.getElem?_eq_getElem this] at hn
          cases hn
        · exact .refl _

theorem step_evolves (s : PS σ) (o : Op) : Evolves s (step W s o).2 := by
  have nothing : Evolves s s := .refl s
  cases o with
  | openIn n =>
    simp only [step, openInputFile]
    split
    · exact nothing
    · exact Evolves.append (s := s) (ns := [_]) (fs := s.files) (by rintro k hk; cases hk; rfl) (by simp)
  | openOut n =>
    simp only [step, openOutputFile]
    split
    · exact Evolves.append (s := s) (ns := [_]) (by rintro k hk; cases hk; rfl) (by simp)
    · exact nothing
  | openInStr t =>
    have := Evolves.append (s := s) (ns := []) (fs := s.files)
      (q := { blank .strIn true with inp := Port.openIn t }) (by intro k hk; cases hk) (by simp)
    simpa [step, openInputString, newPort] using this
  | openOutStr =>
    have := Evolves.append (s := s) (ns := []) (fs := s.files)
      (q := { blank .strOut false with out := Port.openOut }) (by intro k hk; cases hk) (by simp)
    simpa [step, openOutputString, newPort] using this
  | soft ps m =>
    simp only [step, makeSoftPort]
    split
    · exact nothing
    · split
      · have := Evolves.append (s := s) (ns := []) (fs := s.files)
          (q := { blank .soft (m.contains 114) with procs := ps, modes := m }) (by intro k hk; cases hk) (by simp)
        simpa [newPort] using this
      · exact nothing
  | readChar a =>
    simp only [step]
    cases a <;> try exact nothing
    rename_i j
    simp only [readChar]
    rcases getPort_cases s j with ⟨p, hp, hg⟩ | ⟨-, hg⟩ <;> rw [hg]
    · simp only
      generalize (if p.kind = Kind.soft then hasMode p 114 else p.isInput) = b
      cases b
      · exact nothing
      · have := readCharFrom_evolves (W := W) (s := s) (i := j) (p := p) hp
        simp only [if_true]
        revert this
        generalize readCharFrom W s j p = x
        rcases x with ⟨_ | _ | _ | _ | _, s'⟩ <;> exact id
    · exact nothing
  | peekChar a =>
    simp only [step]
    cases a <;> try exact nothing
    rename_i j
    simp only [peekChar]
    rcases getPort_cases s j with ⟨p, hp, hg⟩ | ⟨-, hg⟩ <;> rw [hg]
    · simp only
      split
      · split <;> exact nothing
      · exact nothing
    · exact nothing
  | read a =>
    simp only [step]
    cases a <;> try exact nothing
    rename_i j
    simp only [read]
    rcases getPort_cases s j with ⟨p, hp, hg⟩ | ⟨-, hg⟩ <;> rw [hg]
    · simp only
      split
      · split
        · exact nothing
        · rename_i hc
          split
          · cases hk : p.file with
            | none => exact nothing
            | some k =>
              simp only
              rcases getStream_cases s k with ⟨f, hs, -, h⟩ | ⟨-, h⟩ <;> rw [h]
              · exact Evolves.setStream (g := { f with inp := (Port.readExpr W.flo f.inp).2 }) (fs := s.files) hs rfl (fun a b => absurd a b)
              · exact nothing
          · exact Evolves.setPort (q := { p with inp := (Port.readExpr W.flo p.inp).2 }) (u := s.user) hp rfl rfl rfl rfl (.inl rfl) hc
          · exact nothing
      · exact nothing
    · exact nothing
  | ready a =>
    simp only [step]
    cases a <;> try exact nothing
    rename_i j
    simp only [charReady]
    rcases getPort_cases s j with ⟨p, hp, hg⟩ | ⟨-, hg⟩ <;> rw [hg]
    · simp only
      split
      · split
        · exact nothing
        · split
          · split <;> exact nothing
          · split <;> exact nothing
          · exact nothing
      · exact nothing
    · exact nothing
  | writeChar c a =>
    simp only [step]
    cases a with
    | absent => simp only [writeChar, unspec_snd]; exact fput_evolves (.inl rfl)
    | other => exact nothing
    | port j =>
      simp only [writeChar]
      rcases getPort_cases s j with ⟨p, hp, hg⟩ | ⟨-, hg⟩ <;> rw [hg]
      · simp only
        generalize (if p.kind = Kind.soft then hasMode p 119 else !p.isInput) = b
        cases b
        · exact nothing
        · simp only [if_true, unspec_snd]
          exact writeCharTo_evolves hp c
      · exact nothing
  | print m d a =>
    simp only [step]
    cases a with
    | absent => simp only [print, unspec_snd]; exact fput_evolves (.inl rfl)
    | other => exact nothing
    | port j =>
      simp only [print]
      rcases getPort_cases s j with ⟨p, hp, hg⟩ | ⟨-, hg⟩ <;> rw [hg]
      · simp only
        split
        · exact nothing
        · simp only [unspec_snd]
          exact writeStringTo_evolves hp _
      · exact nothing
  | newline a =>
    simp only [step]
    cases a with
    | absent => simp only [newline, unspec_snd]; exact fput_evolves (.inl rfl)
    | other => exact nothing
    | port j =>
      simp only [newline]
      rcases getPort_cases s j with ⟨p, hp, hg⟩ | ⟨-, hg⟩ <;> rw [hg]
      · simp only
        split
        · exact nothing
        · split
          · exact nothing
          · simp only [unspec_snd]
            exact writeCharTo_evolves hp _
      · exact nothing
  | flush a =>
    simp only [step]
    cases a with
    | absent => simp only [forceOutput, unspec_snd]; exact fflush_evolves
    | other => exact nothing
    | port j =>
      simp only [forceOutput]
      rcases getPort_cases s j with ⟨p, hp, hg⟩ | ⟨-, hg⟩ <;> rw [hg]
      · simp only
        split
        · exact nothing
        · split
          · exact nothing
          · split
            · cases hk : p.file with
              | none => exact nothing
              | some k =>
                simp only [unspec_snd]
                exact fflush_evolves
            · split
              · exact nothing
              · rename_i f _
                have := callProc_evolves (W := W) s f []
                revert this
                generalize callProc W s f [] = x
                rcases x with ⟨_ | _ | _ | _ | _, s'⟩ <;> exact id
            · exact nothing
      · exact nothing
  | getOutput a =>
    simp only [step]
    cases a <;> try exact nothing
    rename_i j
    simp only [getOutputString]
    rcases getPort_cases s j with ⟨p, hp, hg⟩ | ⟨-, hg⟩ <;> rw [hg]
    · simp only
      split <;> exact nothing
    · exact nothing
  | closeIn a =>
    simp only [step]
    cases a <;> try exact nothing
    rename_i j
    simp only [closeInputPort]
    rcases getPort_cases s j with ⟨p, hp, hg⟩ | ⟨-, hg⟩ <;> rw [hg]
    · simp only
      split
      · exact closePort_evolves hp
      · exact nothing
    · exact nothing
  | closeOut a =>
    simp only [step]
    cases a <;> try exact nothing
    rename_i j
    simp only [closeOutputPort]
    rcases getPort_cases s j with ⟨p, hp, hg⟩ | ⟨-, hg⟩ <;> rw [hg]
    · simp only
      split
      · exact nothing
      · exact closePort_evolves hp
    · exact nothing
  | isIn a =>
    simp only [step]
    cases a <;> try exact nothing
    rename_i j
    simp only [isInputPort]
    rcases getPort_cases s j with ⟨p, hp, hg⟩ | ⟨-, hg⟩ <;> rw [hg] <;> exact nothing
  | isOut a =>
    simp only [step]
    cases a <;> try exact nothing
    rename_i j
    simp only [isOutputPort]
    rcases getPort_cases s j with ⟨p, hp, hg⟩ | ⟨-, hg⟩ <;> rw [hg] <;> exact nothing
  | current c => exact nothing
  | setCurrent c a =>
    simp only [step]
    cases a <;> try exact nothing
    rename_i j
    simp only [setCurrent]
    rcases getPort_cases s j with ⟨p, hp, hg⟩ | ⟨-, hg⟩ <;> rw [hg]
    · simp only
      split
      · cases c
        · exact Evolves.cur s j s.curOut s.curErr
        · exact Evolves.cur s s.curIn j s.curErr
        · exact Evolves.cur s s.curIn s.curOut j
      · exact nothing
    · exact nothing

/-- Standard output is not a file, and ports that do not write files have nothing in their buffers. -/
structure Sane (s : PS σ) : Prop where
  std : ∀ f : Stream, s.streams[stdoutK]? = some f → (0 : UInt8) ∈ f.path
  clean : ∀ (j : Nat) (p : PortRec) (k : Nat) (f : Stream), s.ports[j]? = some p → p.file = some k → s.streams[k]? = some f →
    p.kind ≠ .fileOut → f.pend = []
  out : ∀ p : PortRec, s.ports[2]? = some p → p.kind = .fileOut
  three : 3 ≤ s.ports.length

theorem Sane.step {s : PS σ} (h : Sane s) (t : Tidy s) (o : Op) : Sane (step W s o).2 := by
  have ev := step_evolves (W := W) s o
  have hl := (step_frame (W := W) s o).old
  refine ⟨fun f hf => ?_, fun j p k f hp hk hf hkind => ?_, fun p hp => ?_, by have := hl 2 h.three; omega⟩
  · obtain ⟨f0, hf0⟩ : ∃ f0, s.streams[stdoutK]? = some f0 :=
      ⟨_, List.getElem?_eq_getElem (by have := t.std; simp only [stdoutK]; omega)⟩
    obtain ⟨f', h1, h2, -⟩ := ev.streams _ _ hf0
    rw [h1] at hf; cases hf
    rw [h2]; exact h.std f0 hf0
  · cases h0 : s.ports[j]? with
    | none => exact ev.fresh j p k f h0 hp hk hf
    | some p0 =>
      obtain ⟨p', h1, h2, -, -, -, h3, -⟩ := ev.ports j p0 h0
      rw [h1] at hp; cases hp
      rcases h3 with h3 | h3
      · rw [h3] at hk; rw [h2] at hkind
        obtain ⟨f0, hf0⟩ : ∃ f0, s.streams[k]? = some f0 := ⟨_, List.getElem?_eq_getElem (t.lt j k ⟨p0, h0, hk⟩)⟩
        obtain ⟨f', h4, -, h5⟩ := ev.streams k f0 hf0
        obtain rfl : f' = f := Option.some.inj (h4.symm.trans hf)
        cases hpend : f'.pend with
        | nil => rfl
        | cons a b =>
          exfalso
          rcases h5 (h.clean j p0 k f0 h0 hk hf0 hkind) (by rw [hpend]; simp) with rfl | ⟨j', q, hq, hqk, hqf⟩
          · have := t.out j ⟨p0, h0, hk⟩
            subst this
            exact hkind (h.out p0 h0)
          · have := t.inj j j' k ⟨p0, h0, hk⟩ ⟨q, hq, hqf⟩
            subst this
            rw [h0] at hq; cases hq
            exact hkind hqk
      · rw [h3] at hk; cases hk
  · cases h0 : s.ports[2]? with
    | none =>
      have := h.three
      rw [List.getElem?_eq_getElem (by omega)] at h0; cases h0
    | some p0 =>
      obtain ⟨p', h1, h2, -⟩ := ev.ports 2 p0 h0
      rw [h1] at hp; cases hp
      rw [h2]; exact h.out p0 h0

end Pscm.Ports
