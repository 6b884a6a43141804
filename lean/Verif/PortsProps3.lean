import Verif.PortsSoft
/-!
# C107: soft ports
-/
namespace Pscm
open Ports
open Rd (Bytes)
open Port (In Out)

variable {σ : Type}

/-! ## Specification -/

/-- The procedures of soft ports record that they were called, and with what. -/
def Recording (W : World (List (Obj × List Obj))) : Prop := ∀ f args log, ∃ r, W.call f args log = (.ok r, log ++ [(f, args)])

/-- The calls a program should cause on a soft output port: one of the first procedure of the vector for each character written, one of the third
for each flush, one of the fifth when the port is closed. -/
def softCalls (put flush close : Obj) (i : Nat) : List Op → List (Obj × List Obj)
  | [] => []
  | .writeChar c (.port j) :: os => if j = i then (put, [⟨0, .chr c⟩]) :: softCalls put flush close i os else softCalls put flush close i os
  | .flush (.port j) :: os => if j = i then (flush, []) :: softCalls put flush close i os else softCalls put flush close i os
  | .closeOut (.port j) :: os => if j = i then [(close, [])] else softCalls put flush close i os
  | _ :: os => softCalls put flush close i os

/-- What `n` calls of the reading procedure give to the program, one after the other. -/
def replies (W : World σ) (get : Obj) : Nat → σ → List (Option Ans)
  | 0, _ => []
  | n + 1, u =>
    match W.call get [] u with
    | (.ok (some r), u') => (match r.v with | .chr c => some (.char c) | _ => some .eof) :: replies W get n u'
    | (.ok none, u') => some .eof :: replies W get n u'
    | (_, u') => none :: replies W get n u'

/-! ## Lemmas -/

/-- An operation on the soft output port. -/
theorem soft_out_step {W : World (List (Obj × List Obj))} (hW : Recording W) {s : PS (List (Obj × List Obj))} {i : Nat} {p : PortRec}
    (hp : s.ports[i]? = some p) (hk : p.kind = .soft) (hd : p.isInput = false) (hm : p.modes = [119]) (hc : p.closed = false)
    {put flush close : Obj} (h0 : p.procs[0]? = some put) (h2 : p.procs[2]? = some flush) (h4 : p.procs[4]? = some close)
    (c0 : Callable put) (c2 : Callable flush) (c4 : Callable close) {o : Op} (ho : addressee o = some i) :
    (step W s o).2.user = s.user ++ softCalls put flush close i [o] ∧
    (o ≠ .closeOut (.port i) → (step W s o).2.ports[i]? = some p) ∧
    (o = .closeOut (.port i) → (step W s o).2.ports[i]? = some { p with closed := true }) := by
  have gp := getPort_eq hp
  have hlt := (List.getElem?_eq_some_iff.mp hp).1
  have hmode : hasMode p 119 = true := by simp only [hasMode, hm]; rfl
  have hmode' : hasMode p 114 = false := by simp only [hasMode, hm]; rfl
  unfold addressee at ho
  split at ho <;> cases ho
  case h_5 c =>
    obtain ⟨r, hr⟩ := hW put [charObj c] s.user
    have e : step W s (.writeChar c (.port i)) = (.ok .unspecified, { s with user := s.user ++ [(put, [charObj c])] }) := by
      simp [step, Ports.writeChar, gp, hk, hmode, writeCharTo, hc, hd, h0, callProc_callable c0, hr, unspec]
    rw [e]
    exact ⟨by simp [softCalls, charObj], fun _ => hp, fun h => by cases h⟩
  case h_8 =>
    obtain ⟨r, hr⟩ := hW flush [] s.user
    have e : step W s (.flush (.port i)) = (.ok .unspecified, { s with user := s.user ++ [(flush, [])] }) := by
      simp [step, forceOutput, gp, hk, hc, hd, h2, callProc_callable c2, hr]
    rw [e]
    exact ⟨by simp [softCalls], fun _ => hp, fun h => by cases h⟩
  case h_11 =>
    obtain ⟨r, hr⟩ := hW close [] s.user
    have e : step W s (.closeOut (.port i)) = (.ok .unspecified, markClosed { s with user := s.user ++ [(close, [])] } i p) := by
      simp [step, closeOutputPort, closePort, gp, hk, hc, hd, h4, callProc_callable c4, hr]
    rw [e]
    exact ⟨by simp [softCalls, markClosed, setPort], fun h => absurd rfl h, fun _ => by simp [markClosed, setPort, hlt]⟩
  all_goals
    simp [step, Ports.readChar, Ports.peekChar, Ports.read, Ports.charReady, Ports.print, Ports.newline,
      getOutputString, closeInputPort, isInputPort, isOutputPort, gp, hk, hd, hc, hmode', writeStringTo, unspec, softCalls, hp]

theorem softCalls_cons (put flush close : Obj) (i : Nat) (o : Op) (os : List Op) (h : o ≠ .closeOut (.port i)) :
    softCalls put flush close i (o :: os) = softCalls put flush close i [o] ++ softCalls put flush close i os := by
  cases o
  case closeOut a => cases a with
    | port j =>
      have hj : j ≠ i := fun e => h (by rw [e])
      simp only [softCalls]; rw [if_neg hj, if_neg hj]; simp
    | _ => simp [softCalls]
  case writeChar c a => cases a <;> simp only [softCalls] <;> (try split) <;> simp
  case flush a => cases a <;> simp only [softCalls] <;> (try split) <;> simp
  all_goals simp [softCalls]

theorem softCalls_elsewhere {put flush close : Obj} {i : Nat} {o : Op} (h : addressee o ≠ some i) : softCalls put flush close i [o] = [] := by
  unfold softCalls
  split <;> simp_all [softCalls, addressee]

/-- The character returned by a procedure, if it is one. -/
def replyChar : Option Obj → Option UInt8
  | some ⟨_, .chr c⟩ => some c
  | _ => none

/-! ## C107 -/

/-- C107 (output): in any program, from the creation of a soft port for output on, the procedures of the vector are called exactly as its
operations demand: one call of the first, with the character, for each `write-char`, one of the third for each `force-output`, one of the
fifth when the port is closed, in this order, none after that, and none because of other ports. -/
theorem c107_output_partial (W : World (List (Obj × List Obj))) (hW : Recording W) (s t : PS (List (Obj × List Obj))) (procs : List Obj) (i : Nat)
    (hopen : step W s (.soft procs [119]) = (.ok (.port i), t)) (put flush close : Obj) (h0 : procs[0]? = some put) (h2 : procs[2]? = some flush)
    (h4 : procs[4]? = some close) (c0 : Callable put) (c2 : Callable flush) (c4 : Callable close)
    (only : ∀ (j : Nat) (q : PortRec), s.ports[j]? = some q → q.kind ≠ .soft) (ops : List Op) (hops : ∀ ps m, .soft ps m ∉ ops)
    (as : List (Option Ans)) (s' : PS (List (Obj × List Obj))) (h : runs W t ops = some (as, s')) :
    s'.user = s.user ++ softCalls put flush close i ops := by
  have key : ∀ (ops : List Op) (t : PS (List (Obj × List Obj))) (p : PortRec) (as : List (Option Ans)), (∀ ps m, .soft ps m ∉ ops) →
      OneSoft t i p → p.kind = .soft → p.isInput = false → p.modes = [119] → p.procs = procs → runs W t ops = some (as, s') →
      (p.closed = true → s'.user = t.user) ∧ (p.closed = false → s'.user = t.user ++ softCalls put flush close i ops) := by
    intro ops
    induction ops with
    | nil => intro t p as _ _ _ _ _ _ h; rw [runs] at h; cases h; exact ⟨fun _ => rfl, fun _ => by simp [softCalls]⟩
    | cons o os ih =>
      intro t p as hops h1 hk hd hm hps h
      obtain ⟨a, as', -, hr, -⟩ := runs_cons h
      have hns : ∀ ps m, o ≠ .soft ps m := fun ps m e => hops ps m (by rw [e]; exact List.mem_cons_self ..)
      have hos : ∀ ps m, .soft ps m ∉ os := fun ps m e => hops ps m (List.mem_cons_of_mem _ e)
      by_cases ho : addressee o = some i
      · constructor
        · intro hc
          have e := closed_step (W := W) h1.port hc ho
          rw [e] at hr
          exact (ih t p as' hos h1 hk hd hm hps hr).1 hc
        · intro hc
          obtain ⟨e1, e2, e3⟩ := soft_out_step hW h1.port hk hd hm hc (hps ▸ h0) (hps ▸ h2) (hps ▸ h4) c0 c2 c4 ho
          by_cases hcl : o = .closeOut (.port i)
          · have := (ih _ { p with closed := true } as' hos ⟨e3 hcl, h1.others_step hns⟩ hk hd hm hps hr).1 rfl
            rw [this, e1, hcl]
            simp [softCalls]
          · have := (ih _ p as' hos ⟨e2 hcl, h1.others_step hns⟩ hk hd hm hps hr).2 hc
            rw [this, e1, softCalls_cons put flush close i o os hcl, List.append_assoc]
      · obtain ⟨h1', hu⟩ := h1.elsewhere (W := W) hns ho
        obtain ⟨i1, i2⟩ := ih _ p as' hos h1' hk hd hm hps hr
        rw [hu] at i1 i2
        refine ⟨i1, fun hc => ?_⟩
        rw [softCalls_cons _ _ _ _ _ _ (by rintro rfl; exact ho rfl), softCalls_elsewhere ho, List.nil_append]
        exact i2 hc
  simp only [step, makeSoftPort] at hopen
  split at hopen
  · cases hopen
  · rw [if_pos (by decide)] at hopen
    cases hopen
    refine (key ops _ { blank .soft false with procs := procs, modes := [119] } as hops ⟨?_, ?_⟩ rfl rfl rfl rfl h).2 rfl
    · simp
    · intro j q hj hq
      simp only at hq
      have hl : j < s.ports.length := by
        have := (List.getElem?_eq_some_iff.mp hq).1
        simp only [List.length_append, List.length_cons, List.length_nil] at this
        omega
      rw [List.getElem?_append_left hl] at hq
      exact only j q hq

/-- C107 (input): in any program, each `read-char` on a soft port for input calls the fourth procedure of the vector exactly once and gives
the program the character it returned, and the end-of-file object if it returned something else. -/
theorem c107_input_partial (W : World σ) (hW : ∀ f args u, ∃ r u', W.call f args u = (.ok r, u')) (s t : PS σ) (procs : List Obj) (i : Nat)
    (hopen : step W s (.soft procs [114]) = (.ok (.port i), t)) (get : Obj) (h3 : procs[3]? = some get) (c3 : Callable get)
    (only : ∀ (j : Nat) (q : PortRec), s.ports[j]? = some q → q.kind ≠ .soft) (ops : List Op) (hops : ∀ ps m, .soft ps m ∉ ops) (n : Nat)
    (hreads : opsOn i ops = List.replicate n (.readChar (.port i)))
    (as : List (Option Ans)) (s' : PS σ) (h : runs W t ops = some (as, s')) : answersOn i ops as = replies W get n s.user := by
  have key : ∀ (ops : List Op) (n : Nat) (t : PS σ) (p : PortRec) (as : List (Option Ans)), (∀ ps m, .soft ps m ∉ ops) →
      opsOn i ops = List.replicate n (.readChar (.port i)) →
      OneSoft t i p → p.kind = .soft → p.isInput = true → p.modes = [114] → p.procs = procs → p.closed = false → runs W t ops = some (as, s') →
      answersOn i ops as = replies W get n t.user := by
    intro ops
    induction ops with
    | nil =>
      intro n t p as _ hn _ _ _ _ _ _ h
      rw [runs] at h; cases h
      cases n with
      | zero => rfl
      | succ n => rw [List.replicate_succ] at hn; cases hn
    | cons o os ih =>
      intro n t p as hops hn h1 hk hd hm hps hc h
      obtain ⟨a, as', rfl, hr, ha⟩ := runs_cons h
      have hns : ∀ ps m, o ≠ .soft ps m := fun ps m e => hops ps m (by rw [e]; exact List.mem_cons_self ..)
      have hos : ∀ ps m, .soft ps m ∉ os := fun ps m e => hops ps m (List.mem_cons_of_mem _ e)
      by_cases ho : addressee o = some i
      · have e2 : opsOn i (o :: os) = o :: opsOn i os := by simp [opsOn, ho]
        have e3 : answersOn i (o :: os) (a :: as') = a :: answersOn i os as' := by simp [answersOn, ho]
        rw [e2] at hn
        cases n with
        | zero => cases hn
        | succ n =>
          rw [List.replicate_succ, List.cons.injEq] at hn
          obtain ⟨rfl, hn⟩ := hn
          obtain ⟨r, u', hu⟩ := hW get [] t.user
          have hmode : hasMode p 114 = true := by simp only [hasMode, hm]; rfl
          have e : step W t (.readChar (.port i)) =
              (.ok (ansChar (replyChar r)), { t with user := u' }) := by
            have e' : readCharFrom W t i p = (.ok (replyChar r), { t with user := u' }) := by
              simp only [readCharFrom, hk, hd, hc, hps, h3, callProc_callable c3, hu, Bool.false_eq_true, if_false, if_true]
              cases r with
              | none => rfl
              | some r =>
                obtain ⟨b, v⟩ := r
                cases v <;> rfl
            simp [step, Ports.readChar, getPort_eq h1.port, hk, hmode, e']
          have hoth := h1.others_step (W := W) hns
          rw [e] at hr ha hoth
          have := ih n { t with user := u' } p as' hos hn ⟨h1.port, hoth⟩ hk hd hm hps hc hr
          rw [e3, this, replies, hu]
          rcases ha with ⟨x, rfl, ha⟩ | ⟨x, rfl, ha⟩
          · cases ha
            cases r with
            | none => rfl
            | some r =>
              obtain ⟨b, v⟩ := r
              cases v <;> rfl
          · cases ha
      · obtain ⟨h1', hu⟩ := h1.elsewhere (W := W) hns ho
        have e2 : opsOn i (o :: os) = opsOn i os := by simp [opsOn, ho]
        have e3 : answersOn i (o :: os) (a :: as') = answersOn i os as' := by simp [answersOn, ho]
        rw [e2] at hn
        rw [e3, ih n _ p as' hos hn h1' hk hd hm hps hc hr, hu]
  simp only [step, makeSoftPort] at hopen
  split at hopen
  · cases hopen
  · rw [if_pos (by decide)] at hopen
    cases hopen
    refine key ops n { s with ports := s.ports ++ [{ blank .soft true with procs := procs, modes := [114] }] } { blank .soft true with procs := procs, modes := [114] } as hops hreads ⟨?_, ?_⟩ rfl rfl rfl rfl rfl h
    · simp
    · intro j q hj hq
      simp only at hq
      have hl : j < s.ports.length := by
        have := (List.getElem?_eq_some_iff.mp hq).1
        simp only [List.length_append, List.length_cons, List.length_nil] at this
        omega
      rw [List.getElem?_append_left hl] at hq
      exact only j q hq

/-- C107: a soft port is made exactly of a vector of five or six elements with a mode string that has an `r` or a `w`; everything else is
refused and changes nothing. -/
theorem c107_make (W : World σ) (s : PS σ) (procs : List Obj) (modes : Bytes) :
    (((procs.length = 5 ∨ procs.length = 6) ∧ (114 ∈ modes ∨ 119 ∈ modes)) → ∃ t, step W s (.soft procs modes) = (.ok (.port s.ports.length), t)) ∧
    (¬ ((procs.length = 5 ∨ procs.length = 6) ∧ (114 ∈ modes ∨ 119 ∈ modes)) → step W s (.soft procs modes) = (.err .evalError, s)) := by
  simp only [step, makeSoftPort]
  constructor
  · rintro ⟨h1, h2⟩
    rw [if_neg (by omega), if_pos (by simpa using h2)]
    exact ⟨_, rfl⟩
  · intro h
    by_cases h1 : procs.length = 5 ∨ procs.length = 6
    · rw [if_neg (by omega), if_neg (by simpa using fun h2 => h ⟨h1, h2⟩)]
    · rw [if_pos (by omega)]

/-- Five procedures. -/
def fiveProcs : List Obj := [⟨10, .other .proc 10⟩, ⟨11, .other .proc 11⟩, ⟨12, .other .proc 12⟩, ⟨13, .other .proc 13⟩, ⟨14, .other .proc 14⟩]

/-- A world whose soft-port procedures record their calls and return the character `a`. -/
def recorder : World (List (Obj × List Obj)) := ⟨fun _ => 0, fun _ => true, fun f args log => (.ok (some ⟨0, .chr 97⟩), log ++ [(f, args)]), Demo.F0⟩

theorem recorder_recording : Recording recorder := fun _ _ _ => ⟨_, rfl⟩

/-- The start, with nothing called. -/
def bareLog : PS (List (Obj × List Obj)) := initial (fun _ => none) [] []

/-- The calls a program makes. -/
def callsOf (ops : List Op) : Option (List (Obj × List Obj)) := (runs recorder bareLog ops).map fun (_, s) => s.user

example : callsOf [.soft fiveProcs [119], .writeChar 97 (.port 3), .writeChar 98 .absent, .flush (.port 3), .writeChar 99 (.port 3), .closeOut (.port 3),
    .writeChar 100 (.port 3), .closeOut (.port 3)] =
    some [(⟨10, .other .proc 10⟩, [⟨0, .chr 97⟩]), (⟨12, .other .proc 12⟩, []), (⟨10, .other .proc 10⟩, [⟨0, .chr 99⟩]), (⟨14, .other .proc 14⟩, [])] := rfl

example (j : Nat) (q : PortRec) (h : bareLog.ports[j]? = some q) : q.kind ≠ .soft := by
  match j, h with
  | 0, h => cases h; simp [blank]
  | 1, h => cases h; simp [blank]
  | 2, h => cases h; simp [blank]
  | n + 3, h => simp [bareLog, initial] at h

/-- C107: what `display`, `write` and `newline` send to a soft port is lost: no procedure is called. -/
theorem c107_display_counterexample :
    callsOf [.soft fiveProcs [119], .print false (.num 1) (.port 3), .print true (.num 1) (.port 3), .newline (.port 3)] = some [] := rfl

/-- C107: what is written with `write-char` to a soft port for reading and writing is lost, without an error. -/
theorem c107_both_counterexample : callsOf [.soft fiveProcs [114, 119], .writeChar 97 (.port 3)] = some [] ∧
    (runs recorder bareLog [.soft fiveProcs [114, 119], .writeChar 97 (.port 3)]).map (·.1) = some [some (.port 3), some .unspecified] := ⟨rfl, rfl⟩

/-- C107: `peek-char` and `read` find a soft port at its end although `read-char` delivers characters. -/
theorem c107_peek_counterexample : callsOf [.soft fiveProcs [114], .peekChar (.port 3), .read (.port 3)] = some [] ∧
    (runs recorder bareLog [.soft fiveProcs [114], .peekChar (.port 3), .read (.port 3), .readChar (.port 3)]).map (·.1) =
      some [some (.port 3), some .eof, some .eof, some (.char 97)] := ⟨rfl, rfl⟩

end Pscm
