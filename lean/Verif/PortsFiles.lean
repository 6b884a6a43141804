import Verif.PortsLemmas
/-!
# Lemmas about the port layer: what a file contains
-/
namespace Pscm.Ports
open Rd (Bytes)
open Port (In Out)
variable {σ : Type} {W : World σ}

/-- No port but `i` writes to the file `name`, and standard output does not: the other streams on it are for reading and have nothing in
their buffers. -/
structure Bystanders (name : Bytes) (i : Nat) (s : PS σ) : Prop where
  others : ∀ j p k f, j ≠ i → s.ports[j]? = some p → p.file = some k → s.streams[k]? = some f →
    f.path ≠ name ∨ (f.pend = [] ∧ p.kind ≠ .fileOut)
  std : ∀ f, s.streams[stdoutK]? = some f → f.path ≠ name

/-- The operation does not change the file. -/
def Quiet (name : Bytes) (i : Nat) (s s' : PS σ) : Prop :=
  Tidy s → Bystanders name i s → Tidy s' ∧ s'.files name = s.files name ∧ Bystanders name i s'

theorem Quiet.refl (name : Bytes) (i : Nat) (s : PS σ) : Quiet name i s s := fun t h => ⟨t, rfl, h⟩

theorem Quiet.trans {name : Bytes} {i : Nat} {s s' s'' : PS σ} (h1 : Quiet name i s s') (h2 : Quiet name i s' s'') : Quiet name i s s'' := by
  intro t h
  obtain ⟨a, b, c⟩ := h1 t h
  obtain ⟨a', b', c'⟩ := h2 a c
  exact ⟨a', b'.trans b, c'⟩

theorem Quiet.user {name : Bytes} {i : Nat} (s : PS σ) (u : σ) : Quiet name i s { s with user := u } :=
  fun t h => ⟨⟨t.inj, t.lt, t.std, t.out⟩, rfl, ⟨h.others, h.std⟩⟩

theorem Quiet.cur {name : Bytes} {i : Nat} (s : PS σ) (a b d : Nat) : Quiet name i s { s with curIn := a, curOut := b, curErr := d } :=
  fun t h => ⟨⟨t.inj, t.lt, t.std, t.out⟩, rfl, ⟨h.others, h.std⟩⟩

theorem Quiet.setPort {name : Bytes} {i j : Nat} {s : PS σ} {p q : PortRec} (hp : s.ports[j]? = some p) (hk : q.kind = p.kind)
    (hf : q.file = p.file ∨ q.file = none) : Quiet name i s (setPort s j q) := by
  intro t h
  refine ⟨(Frame.setPort (c := fun x => x = j) rfl hp hf).tidy t, rfl, ?_, h.std⟩
  intro j' r k f hne hr hrk hs
  simp only [Ports.setPort] at hr hs
  by_cases hj : j = j'
  · subst hj
    rw [List.getElem?_set_self (List.getElem?_eq_some_iff.mp hp).1] at hr
    cases hr
    rcases hf with hf | hf
    · rw [hk]; exact h.others j p k f hne hp (hf ▸ hrk) hs
    · rw [hf] at hrk; cases hrk
  · rw [List.getElem?_set_ne hj] at hr
    exact h.others j' r k f hne hr hrk hs

theorem Quiet.append {name : Bytes} {i : Nat} {s : PS σ} {q : PortRec} {ns : List Stream} {fs : Bytes → Option Bytes}
    (hq : ∀ k, q.file = some k → k = s.streams.length ∧ ns ≠ []) (hn : ∀ f ∈ ns, f.path ≠ name ∨ (f.pend = [] ∧ q.kind ≠ .fileOut))
    (hfs : fs name = s.files name) :
    Quiet name i s { s with ports := s.ports ++ [q], streams := s.streams ++ ns, files := fs } := by
  intro t h
  refine ⟨(Frame.append (c := fun _ => False) hq).tidy t, hfs, ?_, ?_⟩
  · intro j r k f hne hr hrk hs
    simp only at hr hs
    by_cases hj : j < s.ports.length
    · rw [List.getElem?_append_left hj] at hr
      rw [List.getElem?_append_left (t.lt j k ⟨r, hr, hrk⟩)] at hs
      exact h.others j r k f hne hr hrk hs
    · rw [List.getElem?_append_right (by omega)] at hr
      cases hd : j - s.ports.length with
      | zero =>
        rw [hd] at hr; cases hr
        obtain ⟨rfl, -⟩ := hq k hrk
        rw [List.getElem?_append_right (by omega)] at hs
        exact hn f (List.mem_of_getElem? hs)
      | succ m => rw [hd] at hr; simp at hr
  · intro f hs
    simp only at hs
    rw [List.getElem?_append_left (by have := t.std; simp only [stdoutK]; omega)] at hs
    exact h.std f hs

/-- A stream that is not that of the port `i` changes. -/
theorem Quiet.stream {name : Bytes} {i k : Nat} {s : PS σ} {f g : Stream} {fs : Bytes → Option Bytes} (hs : s.streams[k]? = some f)
    (hg : g.path = f.path) (hp : f.path ≠ name ∨ (f.pend = [] → g.pend = [])) (hfs : Tidy s → Bystanders name i s → fs name = s.files name)
    (u : σ) : Quiet name i s { s with streams := s.streams.set k g, files := fs, user := u } := by
  intro t h
  refine ⟨⟨t.inj, fun a b ho => by simpa using t.lt a b ho, by simpa using t.std, t.out⟩, hfs t h, ?_, ?_⟩
  · intro j r k' f' hne hr hrk hs'
    simp only at hs' hr
    by_cases hk : k = k'
    · subst hk
      rw [List.getElem?_set_self (List.getElem?_eq_some_iff.mp hs).1] at hs'
      cases hs'
      rcases h.others j r k f hne hr hrk hs with ho | ⟨h1, h2⟩
      · exact .inl (by rw [hg]; exact ho)
      · rcases hp with hp | hp
        · exact .inl (by rw [hg]; exact hp)
        · exact .inr ⟨hp h1, h2⟩
    · rw [List.getElem?_set_ne hk] at hs'
      exact h.others j r k' f' hne hr hrk hs'
  · intro f' hs'
    simp only at hs'
    by_cases hk : k = stdoutK
    · subst hk
      rw [List.getElem?_set_self (List.getElem?_eq_some_iff.mp hs).1] at hs'
      cases hs'
      rw [hg]; exact h.std f hs
    · rw [List.getElem?_set_ne hk] at hs'
      exact h.std f' hs'

/-- The stream is not one that writes to the file. -/
def Harmless (name : Bytes) (i : Nat) (s : PS σ) (k : Nat) : Prop :=
  k = stdoutK ∨ ∃ j p, j ≠ i ∧ s.ports[j]? = some p ∧ p.file = some k

/-- Draining such a stream. -/
theorem drain_quiet {name : Bytes} {i k n : Nat} {s : PS σ} {f g : Stream} (hs : s.streams[k]? = some f) (hh : Harmless name i s k)
    (hg : g.path = f.path) (hp : f.path ≠ name ∨ g.pend = f.pend) : Quiet name i s (drain s k g n) := by
  refine Quiet.stream (u := s.user) hs (by simpa using hg) ?_ ?_
  · rcases hp with hp | hp
    · exact .inl hp
    · refine .inr fun he => ?_
      simp [hp, he]
  · intro t h
    have hf : f.path ≠ name ∨ f.pend = [] := by
      rcases hh with rfl | ⟨j, p, hne, hjp, hpk⟩
      · exact .inl (h.std f hs)
      · rcases h.others j p k f hne hjp hpk hs with h | h
        · exact .inl h
        · exact .inr h.1
    rw [if_neg]
    rintro ⟨h1, h2⟩
    rcases hf with hf | hf
    · exact hf (by rw [← hg]; exact h1.symm)
    · rcases hp with hp | hp
      · exact hp (by rw [← hg]; exact h1.symm)
      · rw [hp, hf] at h2; simp at h2

theorem fflush_quiet {name : Bytes} {i k : Nat} {s : PS σ} (hh : Harmless name i s k) : Quiet name i s (fflush s k).2 := by
  unfold fflush
  rcases getStream_cases s k with ⟨f, hs, -, h⟩ | ⟨-, h⟩ <;> rw [h]
  · exact drain_quiet hs hh rfl (.inr rfl)
  · exact .refl _ _ _

theorem fclose_quiet {name : Bytes} {i k : Nat} {s : PS σ} (hh : Harmless name i s k) : Quiet name i s (fclose s k).2 := by
  unfold fclose
  rcases getStream_cases s k with ⟨f, hs, -, h⟩ | ⟨-, h⟩ <;> rw [h]
  · exact drain_quiet hs hh rfl (.inr rfl)
  · exact .refl _ _ _

/-- Writing to a stream: standard output or that of another output port. -/
theorem fput_quiet {name : Bytes} {i k : Nat} {s : PS σ} {bs : Bytes}
    (hh : k = stdoutK ∨ ∃ j p, j ≠ i ∧ s.ports[j]? = some p ∧ p.file = some k ∧ p.kind = .fileOut) : Quiet name i s (fput W s k bs).2 := by
  unfold fput
  rcases getStream_cases s k with ⟨f, hs, -, h⟩ | ⟨-, h⟩ <;> rw [h]
  · intro t b
    have hf : f.path ≠ name := by
      rcases hh with rfl | ⟨j, p, hne, hjp, hpk, hk⟩
      · exact b.std f hs
      · rcases b.others j p k f hne hjp hpk hs with h | h
        · exact h
        · exact absurd hk h.2
    exact drain_quiet (g := { f with pend := f.pend ++ bs }) hs
      (hh.imp id fun ⟨j, p, h1, h2, h3, _⟩ => ⟨j, p, h1, h2, h3⟩) rfl (.inl hf) t b
  · exact .refl _ _ _

theorem callProc_quiet {name : Bytes} {i : Nat} (s : PS σ) (f : Obj) (args : List Obj) : Quiet name i s (callProc W s f args).2 := by
  unfold callProc
  split
  · exact .refl _ _ _
  · split
    · exact .user s _
    · exact .user s _
    · exact .refl _ _ _

theorem intoBuffer_quiet {name : Bytes} {i j : Nat} {s : PS σ} {p : PortRec} (hp : s.ports[j]? = some p) (r : Res Out) :
    Quiet name i s (intoBuffer s j p r).2 := by
  cases r
  case ok o => exact Quiet.setPort hp rfl (.inl rfl)
  all_goals exact .refl _ _ _

theorem writeCharTo_quiet {name : Bytes} {i j : Nat} {s : PS σ} {p : PortRec} (hj : j ≠ i) (hp : s.ports[j]? = some p) (b : UInt8) :
    Quiet name i s (writeCharTo W s j p b).2 := by
  unfold writeCharTo
  split
  · exact .refl _ _ _
  · split
    · rename_i hkind
      cases hk : p.file with
      | none => exact .refl _ _ _
      | some k => exact fput_quiet (.inr ⟨j, p, hj, hp, hk, hkind⟩)
    · exact intoBuffer_quiet hp _
    · split
      · exact .refl _ _ _
      · split
        · exact .refl _ _ _
        · rename_i f _
          have := callProc_quiet (W := W) (name := name) (i := i) s f [charObj b]
          revert this
          generalize callProc W s f [charObj b] = x
          rcases x with ⟨_ | _ | _ | _ | _, s'⟩ <;> exact id
    · exact .refl _ _ _

theorem writeStringTo_quiet {name : Bytes} {i j : Nat} {s : PS σ} {p : PortRec} (hj : j ≠ i) (hp : s.ports[j]? = some p) (b : Bytes) :
    Quiet name i s (writeStringTo W s j p b).2 := by
  unfold writeStringTo
  split
  · exact .refl _ _ _
  · split
    · rename_i hkind
      cases hk : p.file with
      | none => exact .refl _ _ _
      | some k => exact fput_quiet (.inr ⟨j, p, hj, hp, hk, hkind⟩)
    · exact intoBuffer_quiet hp _
    · exact .refl _ _ _

theorem readCharFrom_quiet {name : Bytes} {i j : Nat} {s : PS σ} {p : PortRec} (hp : s.ports[j]? = some p) :
    Quiet name i s (readCharFrom W s j p).2 := by
  unfold readCharFrom
  split
  · exact .refl _ _ _
  · split
    · cases hk : p.file with
      | none => exact .refl _ _ _
      | some k =>
        simp only
        rcases getStream_cases s k with ⟨f, hs, -, h⟩ | ⟨-, h⟩ <;> rw [h]
        · exact Quiet.stream (g := { f with inp := (Port.readChar f.inp).2 }) (u := s.user) (fs := s.files) hs rfl (.inr id) (fun _ _ => rfl)
        · exact .refl _ _ _
    · exact Quiet.setPort hp rfl (.inl rfl)
    · split
      · split
        · exact .refl _ _ _
        · rename_i g _
          have := callProc_quiet (W := W) (name := name) (i := i) s g []
          revert this
          generalize callProc W s g [] = x
          rcases x with ⟨_ | _ | _ | _ | _, s'⟩
          case ok a => cases a <;> exact id
          all_goals exact id
      · exact .refl _ _ _
    · exact .refl _ _ _

theorem closePort_quiet {name : Bytes} {i j : Nat} {s : PS σ} {p : PortRec} (hj : j ≠ i) (hp : s.ports[j]? = some p) :
    Quiet name i s (closePort W s j p).2 := by
  unfold closePort
  split
  · exact .refl _ _ _
  · split
    · split
      · exact Quiet.setPort hp rfl (.inl rfl)
      · rename_i f _
        have h1 := callProc_quiet (W := W) (name := name) (i := i) s f []
        have h2 := (callProc_ports (W := W) s f []).1
        revert h1 h2
        generalize callProc W s f [] = x
        rcases x with ⟨_ | _ | _ | _ | _, s'⟩
        case ok a => exact fun h1 h2 => h1.trans (Quiet.setPort (p := p) (by rw [h2]; exact hp) rfl (.inl rfl))
        all_goals exact fun h _ => h
    · split
      · rename_i k hk
        have h1 := fclose_quiet (name := name) (i := i) (s := s) (k := k) (.inr ⟨j, p, hj, hp, hk⟩)
        have h2 : (fclose s k).2.ports = s.ports := by
          unfold fclose
          rcases getStream_cases s k with ⟨f, -, -, h⟩ | ⟨-, h⟩ <;> rw [h] <;> rfl
        revert h1 h2
        generalize fclose s k = x
        rcases x with ⟨_ | _ | _ | _ | _, s'⟩
        case ok a => exact fun h1 h2 => h1.trans (Quiet.setPort (p := p) (by rw [h2]; exact hp) rfl (.inr rfl))
        all_goals exact fun h _ => h
      · exact Quiet.setPort hp rfl (.inl rfl)

/-- An operation that is not on the port `i` and does not open the file for output leaves the file alone. -/
theorem step_quiet {name : Bytes} {i : Nat} (s : PS σ) (o : Op) (ha : o.arg ≠ .port i) (hn : ∀ n, o = .openOut n → cstr n ≠ name) :
    Quiet name i s (step W s o).2 := by
  have nothing : Quiet name i s s := .refl _ _ s
  cases o with
  | openIn n =>
    simp only [step, openInputFile]
    split
    · exact nothing
    · refine Quiet.append (s := s) (ns := [_]) (fs := s.files) (by rintro k hk; cases hk; exact ⟨rfl, by simp⟩) ?_ rfl
      intro f hf
      simp only [List.mem_cons, List.not_mem_nil, or_false] at hf
      subst hf
      exact .inr ⟨rfl, by simp [blank]⟩
  | openOut n =>
    simp only [step, openOutputFile]
    split
    · refine Quiet.append (s := s) (ns := [_]) (by rintro k hk; cases hk; exact ⟨rfl, by simp⟩) ?_ ?_
      · intro f hf
        simp only [List.mem_cons, List.not_mem_nil, or_false] at hf
        subst hf
        exact .inl (hn n rfl)
      · exact if_neg (fun h => hn n rfl h.symm)
    · exact nothing
  | openInStr t =>
    have := Quiet.append (name := name) (i := i) (s := s) (ns := []) (fs := s.files)
      (q := { blank .strIn true with inp := Port.openIn t }) (by intro k hk; cases hk) (by simp) rfl
    simpa [step, openInputString, newPort] using this
  | openOutStr =>
    have := Quiet.append (name := name) (i := i) (s := s) (ns := []) (fs := s.files)
      (q := { blank .strOut false with out := Port.openOut }) (by intro k hk; cases hk) (by simp) rfl
    simpa [step, openOutputString, newPort] using this
  | soft ps m =>
    simp only [step, makeSoftPort]
    split
    · exact nothing
    · split
      · have := Quiet.append (name := name) (i := i) (s := s) (ns := []) (fs := s.files)
          (q := { blank .soft (m.contains 114) with procs := ps, modes := m }) (by intro k hk; cases hk) (by simp) rfl
        simpa [newPort] using this
      · exact nothing
  | readChar a =>
    simp only [step]
    cases a <;> try exact nothing
    rename_i j
    simp only [readChar]
    rcases getPort_cases s j with ⟨p, hp, hg⟩ | ⟨-, hg⟩ <;> rw [hg]
    · simp only
      generalize (if p.kind = Kind.soft then hasMode p 114 else p.isInput) = b
      cases b
      · exact nothing
      · have := readCharFrom_quiet (W := W) (name := name) (i := i) (s := s) (j := j) (p := p) hp
        simp only [if_true]
        revert this
        generalize readCharFrom W s j p = x
        rcases x with ⟨_ | _ | _ | _ | _, s'⟩ <;> exact id
    · exact nothing
  | peekChar a =>
    simp only [step]
    cases a <;> try exact nothing
    rename_i j
    simp only [peekChar]
    rcases getPort_cases s j with ⟨p, hp, hg⟩ | ⟨-, hg⟩ <;> rw [hg]
    · simp only
      split
      · split <;> exact nothing
      · exact nothing
    · exact nothing
  | read a =>
    simp only [step]
    cases a <;> try exact nothing
    rename_i j
    simp only [read]
    rcases getPort_cases s j with ⟨p, hp, hg⟩ | ⟨-, hg⟩ <;> rw [hg]
    · simp only
      split
      · split
        · exact nothing
        · split
          · cases hk : p.file with
            | none => exact nothing
            | some k =>
              simp only
              rcases getStream_cases s k with ⟨f, hs, -, h⟩ | ⟨-, h⟩ <;> rw [h]
              · exact Quiet.stream (g := { f with inp := (Port.readExpr W.flo f.inp).2 }) (u := s.user) (fs := s.files) hs rfl (.inr id) (fun _ _ => rfl)
              · exact nothing
          · exact Quiet.setPort hp rfl (.inl rfl)
          · exact nothing
      · exact nothing
    · exact nothing
  | ready a =>
    simp only [step]
    cases a <;> try exact nothing
    rename_i j
    simp only [charReady]
    rcases getPort_cases s j with ⟨p, hp, hg⟩ | ⟨-, hg⟩ <;> rw [hg]
    · simp only
      split
      · split
        · exact nothing
        · split
          · split <;> exact nothing
          · split <;> exact nothing
          · exact nothing
      · exact nothing
    · exact nothing
  | writeChar c a =>
    simp only [step]
    cases a with
    | absent => simp only [writeChar, unspec_snd]; exact fput_quiet (.inl rfl)
    | other => exact nothing
    | port j =>
      have hj : j ≠ i := fun h => ha (by rw [h]; rfl)
      simp only [writeChar]
      rcases getPort_cases s j with ⟨p, hp, hg⟩ | ⟨-, hg⟩ <;> rw [hg]
      · simp only
        generalize (if p.kind = Kind.soft then hasMode p 119 else !p.isInput) = b
        cases b
        · exact nothing
        · simp only [if_true, unspec_snd]
          exact writeCharTo_quiet hj hp c
      · exact nothing
  | print m d a =>
    simp only [step]
    cases a with
    | absent => simp only [print, unspec_snd]; exact fput_quiet (.inl rfl)
    | other => exact nothing
    | port j =>
      have hj : j ≠ i := fun h => ha (by rw [h]; rfl)
      simp only [print]
      rcases getPort_cases s j with ⟨p, hp, hg⟩ | ⟨-, hg⟩ <;> rw [hg]
      · simp only
        split
        · exact nothing
        · simp only [unspec_snd]
          exact writeStringTo_quiet hj hp _
      · exact nothing
  | newline a =>
    simp only [step]
    cases a with
    | absent => simp only [newline, unspec_snd]; exact fput_quiet (.inl rfl)
    | other => exact nothing
    | port j =>
      have hj : j ≠ i := fun h => ha (by rw [h]; rfl)
      simp only [newline]
      rcases getPort_cases s j with ⟨p, hp, hg⟩ | ⟨-, hg⟩ <;> rw [hg]
      · simp only
        split
        · exact nothing
        · split
          · exact nothing
          · simp only [unspec_snd]
            exact writeCharTo_quiet hj hp _
      · exact nothing
  | flush a =>
    simp only [step]
    cases a with
    | absent => simp only [forceOutput, unspec_snd]; exact fflush_quiet (.inl rfl)
    | other => exact nothing
    | port j =>
      have hj : j ≠ i := fun h => ha (by rw [h]; rfl)
      simp only [forceOutput]
      rcases getPort_cases s j with ⟨p, hp, hg⟩ | ⟨-, hg⟩ <;> rw [hg]
      · simp only
        split
        · exact nothing
        · split
          · exact nothing
          · split
            · cases hk : p.file with
              | none => exact nothing
              | some k =>
                simp only [unspec_snd]
                exact fflush_quiet (.inr ⟨j, p, hj, hp, hk⟩)
            · split
              · exact nothing
              · rename_i f _
                have := callProc_quiet (W := W) (name := name) (i := i) s f []
                revert this
                generalize callProc W s f [] = x
                rcases x with ⟨_ | _ | _ | _ | _, s'⟩ <;> exact id
            · exact nothing
      · exact nothing
  | getOutput a =>
    simp only [step]
    cases a <;> try exact nothing
    rename_i j
    simp only [getOutputString]
    rcases getPort_cases s j with ⟨p, hp, hg⟩ | ⟨-, hg⟩ <;> rw [hg]
    · simp only
      split <;> exact nothing
    · exact nothing
  | closeIn a =>
    simp only [step]
    cases a <;> try exact nothing
    rename_i j
    have hj : j ≠ i := fun h => ha (by rw [h]; rfl)
    simp only [closeInputPort]
    rcases getPort_cases s j with ⟨p, hp, hg⟩ | ⟨-, hg⟩ <;> rw [hg]
    · simp only
      split
      · exact closePort_quiet hj hp
      · exact nothing
    · exact nothing
  | closeOut a =>
    simp only [step]
    cases a <;> try exact nothing
    rename_i j
    have hj : j ≠ i := fun h => ha (by rw [h]; rfl)
    simp only [closeOutputPort]
    rcases getPort_cases s j with ⟨p, hp, hg⟩ | ⟨-, hg⟩ <;> rw [hg]
    · simp only
      split
      · exact nothing
      · exact closePort_quiet hj hp
    · exact nothing
  | isIn a =>
    simp only [step]
    cases a <;> try exact nothing
    rename_i j
    simp only [isInputPort]
    rcases getPort_cases s j with ⟨p, hp, hg⟩ | ⟨-, hg⟩ <;> rw [hg] <;> exact nothing
  | isOut a =>
    simp only [step]
    cases a <;> try exact nothing
    rename_i j
    simp only [isOutputPort]
    rcases getPort_cases s j with ⟨p, hp, hg⟩ | ⟨-, hg⟩ <;> rw [hg] <;> exact nothing
  | current c => exact nothing
  | setCurrent c a =>
    simp only [step]
    cases a <;> try exact nothing
    rename_i j
    simp only [setCurrent]
    rcases getPort_cases s j with ⟨p, hp, hg⟩ | ⟨-, hg⟩ <;> rw [hg]
    · simp only
      split
      · cases c
        · exact Quiet.cur s j s.curOut s.curErr
        · exact Quiet.cur s s.curIn j s.curErr
        · exact Quiet.cur s s.curIn s.curOut j
      · exact nothing
    · exact nothing

/-! ## The port that writes the file -/

/-- The port `i` is an open output port on the file `name`, and `w` was written to it: part of it is in the file, the rest in the buffer. -/
structure Writing (name : Bytes) (i k : Nat) (p : PortRec) (f : Stream) (s : PS σ) (w : Bytes) : Prop where
  port : s.ports[i]? = some p
  kind : p.kind = .fileOut
  dir : p.isInput = false
  opened : p.closed = false
  file : p.file = some k
  stream : s.streams[k]? = some f
  live : f.isOpen = true
  path : f.path = name
  disk : ∃ d, s.files name = some d ∧ d.length = f.done ∧ d ++ f.pend = w
  ordinary : k ≠ stdoutK

/-- It was closed after `w` was written. -/
structure Finished (name : Bytes) (i : Nat) (s : PS σ) (w : Bytes) : Prop where
  port : ∃ p, s.ports[i]? = some p ∧ p.kind = .fileOut ∧ p.isInput = false ∧ p.closed = true
  disk : s.files name = some w

/-- What surrounds it. -/
structure Around (name : Bytes) (i : Nat) (s : PS σ) : Prop where
  tidy : Tidy s
  others : Bystanders name i s

theorem overwrite_end (d bs : Bytes) : overwrite d d.length bs = d ++ bs := by
  simp [overwrite]

theorem Bystanders.own {name : Bytes} {i k : Nat} {s s' : PS σ} (h : Bystanders name i s) (hports : ∀ j, j ≠ i → s'.ports[j]? = s.ports[j]?)
    (hstr : ∀ k', k' ≠ k → s'.streams[k']? = s.streams[k']?) (hk : ∀ j p, j ≠ i → s.ports[j]? = some p → p.file ≠ some k)
    (hstd : k ≠ stdoutK) : Bystanders name i s' where
  others := fun j p k' f hne hp hf hs => by
    rw [hports j hne] at hp
    have : k' ≠ k := by rintro rfl; exact hk j p hne hp hf
    rw [hstr k' this] at hs
    exact h.others j p k' f hne hp hf hs
  std := fun f hs => by
    rw [hstr _ (Ne.symm hstd)] at hs
    exact h.std f hs

theorem Around.drain {name : Bytes} {i k : Nat} {p : PortRec} {s : PS σ} (h : Around name i s) (hp : s.ports[i]? = some p)
    (hk : p.file = some k) (hstd : k ≠ stdoutK) (g : Stream) (n : Nat) : Around name i (drain s k g n) := by
  refine ⟨(Frame.ofStreams (c := fun x => x = i) (u := s.user) (.inr ⟨i, rfl, p, hp, hk⟩)).tidy h.tidy, ?_⟩
  refine h.others.own (k := k) (fun _ _ => rfl) (fun k' hne => ?_) (fun j q hne hq hqk => ?_) hstd
  · simp only [Ports.drain]
    rw [List.getElem?_set_ne (Ne.symm hne)]
  · exact hne (h.tidy.inj j i k ⟨q, hq, hqk⟩ ⟨p, hp, hk⟩)

theorem Around.setPort {name : Bytes} {i : Nat} {p q : PortRec} {s : PS σ} (h : Around name i s) (hp : s.ports[i]? = some p)
    (hk : q.kind = p.kind) (hf : q.file = p.file ∨ q.file = none) : Around name i (setPort s i q) := by
  obtain ⟨a, -, c⟩ := Quiet.setPort (name := name) (i := i) hp hk hf h.tidy h.others
  exact ⟨a, c⟩

/-- Draining the buffer does not change what was written. -/
theorem Writing.drain {name : Bytes} {i k : Nat} {p : PortRec} {f g : Stream} {s : PS σ} {w bs : Bytes} (h : Writing name i k p f s w)
    (hg : g = { f with pend := f.pend ++ bs }) (n : Nat) :
    ∃ f', Writing name i k p f' (drain s k g n) (w ++ bs) ∧ (g.pend.length ≤ n → f'.pend = []) := by
  obtain ⟨d, h1, h2, h3⟩ := h.disk
  have hlt : k < s.streams.length := (List.getElem?_eq_some_iff.mp h.stream).1
  subst hg
  refine ⟨{ f with done := f.done + ((f.pend ++ bs).take n).length, pend := (f.pend ++ bs).drop n },
    ⟨h.port, h.kind, h.dir, h.opened, h.file, by simp only [Ports.drain]; rw [List.getElem?_set_self hlt], h.live, h.path, ?_, h.ordinary⟩, ?_⟩
  · refine ⟨d ++ (f.pend ++ bs).take n, ?_, ?_, ?_⟩
    · simp only [Ports.drain]
      by_cases he : (f.pend ++ bs).take n = []
      · rw [if_neg (by simp [he]), he, List.append_nil]; exact h1
      · rw [if_pos ⟨h.path.symm, he⟩, h1, Option.getD_some, ← h2, overwrite_end]
    · simp only [List.length_append, h2]
    · simp only
      rw [List.append_assoc, List.take_append_drop, ← List.append_assoc, h3]
  · intro hn
    simp only at hn ⊢
    exact List.drop_eq_nil_of_le hn

theorem Writing.fput {name : Bytes} {i k : Nat} {p : PortRec} {f : Stream} {s : PS σ} {w : Bytes} (h : Writing name i k p f s w)
    (a : Around name i s) (bs : Bytes) :
    (fput W s k bs).1 = .ok () ∧ Around name i (fput W s k bs).2 ∧ ∃ f', Writing name i k p f' (fput W s k bs).2 (w ++ bs) := by
  have e : getStream s k = .ok f := by rw [getStream, h.stream]; simp [h.live]
  unfold Ports.fput
  rw [e]
  obtain ⟨f', hf', -⟩ := h.drain (bs := bs) rfl (W.spill (f.pend ++ bs))
  exact ⟨rfl, a.drain h.port h.file h.ordinary _ _, f', hf'⟩

theorem Writing.fflush {name : Bytes} {i k : Nat} {p : PortRec} {f : Stream} {s : PS σ} {w : Bytes} (h : Writing name i k p f s w)
    (a : Around name i s) :
    (fflush s k).1 = .ok () ∧ Around name i (fflush s k).2 ∧ ∃ f', Writing name i k p f' (fflush s k).2 w ∧ f'.pend = [] := by
  have e : getStream s k = .ok f := by rw [getStream, h.stream]; simp [h.live]
  unfold Ports.fflush
  rw [e]
  obtain ⟨f', hf', he⟩ := h.drain (g := f) (bs := []) (by simp) f.pend.length
  rw [List.append_nil] at hf'
  exact ⟨rfl, a.drain h.port h.file h.ordinary _ _, f', hf', he (Nat.le_refl _)⟩

theorem Writing.disk_of_empty {name : Bytes} {i k : Nat} {p : PortRec} {f : Stream} {s : PS σ} {w : Bytes} (h : Writing name i k p f s w)
    (he : f.pend = []) : s.files name = some w := by
  obtain ⟨d, h1, -, h3⟩ := h.disk
  rw [he, List.append_nil] at h3
  rw [h1, h3]

theorem Writing.close {name : Bytes} {i k : Nat} {p : PortRec} {f : Stream} {s : PS σ} {w : Bytes} (h : Writing name i k p f s w)
    (a : Around name i s) : (closePort W s i p).1 = .ok .unspecified ∧ Around name i (closePort W s i p).2 ∧ Finished name i (closePort W s i p).2 w := by
  have e : getStream s k = .ok f := by rw [getStream, h.stream]; simp [h.live]
  have hc : fclose s k = (.ok (), Ports.drain s k { f with isOpen := false } f.pend.length) := by unfold fclose; rw [e]
  have hcl : closePort W s i p = (.ok .unspecified, markClosed (Ports.drain s k { f with isOpen := false } f.pend.length) i { p with file := none }) := by
    unfold closePort
    rw [if_neg (by simp [h.opened]), if_neg (by simp [h.kind]), h.file]
    simp only
    rw [hc]
  rw [hcl]
  have a' := a.drain h.port h.file h.ordinary { f with isOpen := false } f.pend.length
  refine ⟨rfl, a'.setPort (p := p) h.port rfl (.inr rfl), ⟨⟨{ p with file := none, closed := true }, ?_, h.kind, h.dir, rfl⟩, ?_⟩⟩
  · simp only [markClosed, Ports.setPort, Ports.drain]
    rw [List.getElem?_set_self (List.getElem?_eq_some_iff.mp h.port).1]
  · obtain ⟨d, h1, h2, h3⟩ := h.disk
    simp only [markClosed, Ports.setPort, Ports.drain]
    by_cases he : f.pend = []
    · rw [if_neg (by simp [he]), h1]; rw [he, List.append_nil] at h3; rw [h3]
    · rw [if_pos ⟨h.path.symm, by simpa using he⟩, h1, Option.getD_some, ← h2, overwrite_end, List.take_length, h3]

end Pscm.Ports
