import Verif.EvApiLemmas
import Verif.EvDemo
/-!
# C84: every embedding call leaves the interpreter usable

`pscmEvalString P n t` is the call `pscm_eval_string` on a text that reads as `t`; `n` bounds the depth of the evaluation (for every call that
returns some `n` suffices, C41).  Calls that do not return (undefined behaviour, failed assertion, endless loop, continuations of an
earlier call, which are not modelled) have no "afterwards".
-/
namespace Pscm.Ev
variable {σ : Type}

/-- A call of `pscm_eval_string` that returns. -/
def Call (P : Prims σ) (s : St σ) (t : ReadRes) (r : ApiRes) (s' : St σ) : Prop := ∃ n, pscmEvalString P n t s = some (.ok r, s')

/-- Any number of calls, with whatever results. -/
inductive Calls (P : Prims σ) : St σ → St σ → Prop
  | nil {s} : Calls P s s
  | cons {s s1 s2 t r} : Call P s t r s1 → Calls P s1 s2 → Calls P s s2

/-- An interpreter on which no call is under way, fresh or not: nothing on the C stack, room for two catches. -/
structure Ready (s : St σ) : Prop where
  idle : s.live = []
  numbered : ∀ c ∈ s.catches, c.id < s.next
  room : s.catches.length ≤ 98

/-- A self-evaluating value. -/
def Constant : V → Prop
  | .num _ | .bool _ | .str _ | .chr _ | .flo _ => True
  | _ => False

theorem Ready.wf {s : St σ} (h : Ready s) : CtlWF s := ⟨h.numbered, by rw [h.idle]; simp⟩

/-- A boundary around a body that never adds a catch to a nearly full stack. -/
theorem apiCatch_room {body : EM σ ApiRes} {s s' : St σ} {r : ApiRes} (hw : CtlWF s) (hl : s.catches.length ≤ 98)
    (hb : ∀ s r, CtlWF s → s.catches.length ≤ 99 → body s = some r →
      (∀ t k a, r.1 ≠ .stop (.err t k a)) ∧ ((∃ v, r.1 = .ok v) → r.2.catches.length ≤ 99))
    (h : apiCatch body s = some (.ok r, s')) : s'.catches.length ≤ 98 := by
  unfold apiCatch at h
  rw [getSt_bind, if_neg (by omega)] at h
  let s1 : St σ := { s with next := s.next + 1, catches := ⟨s.next, .bool true⟩ :: s.catches, live := s.next :: s.live }
  have w1 : CtlWF s1 := by
    refine ⟨fun c hc => ?_, fun i hi => ?_⟩
    · rcases List.mem_cons.1 hc with rfl | hc
      · simp [s1]
      · have := hw.catches c hc; simp only [s1]; omega
    · rcases List.mem_cons.1 hi with rfl | hi
      · simp [s1]
      · have := hw.live i hi; simp only [s1]; omega
  obtain ⟨o, s2, hx, h⟩ := handle_eq_some (x := body) (s := s1) h
  obtain ⟨h1, h2⟩ := hb s1 _ w1 (by show s.catches.length + 1 ≤ 99; omega) hx
  cases o with
  | ok v =>
    cases h
    have := h2 ⟨_, rfl⟩
    have : s2.catches.length ≤ 99 := this
    show s2.catches.tail.length ≤ 98
    rw [List.length_tail]
    omega
  | stop e =>
    cases e with
    | err t k a => exact absurd rfl (h1 t k a)
    | _ => cases h

theorem call_ready {P : Prims σ} {s s' : St σ} {t : ReadRes} {r : ApiRes} (h : Ready s) (hc : Call P s t r s') : Ready s' := by
  obtain ⟨n, hc⟩ := hc
  have hb : ApiOk (pscmParse t >>= evalParsed P n) := apiOk_bind (pscmParse_ok t) (evalParsed_ok P n)
  obtain ⟨h1, _⟩ := apiCatch_ctl hb hc h.wf
  obtain ⟨hw, _, hl, _⟩ := h1 h.wf
  have hw : CtlWF s' := hw
  have hl : s'.live = s.live := hl
  refine ⟨by rw [hl]; exact h.idle, hw.catches, ?_⟩
  refine apiCatch_room h.wf h.room ?_ hc
  rintro s ⟨o, s2⟩ w hlen hx
  rcases bind_eq_some.1 hx with ⟨a, s1, ha, hx⟩ | ⟨e, he, rfl⟩
  · obtain ⟨g1, g2⟩ := apiCatch_ctl (parseText_ok t) ha w
    have hl1 : s1.catches.length ≤ 99 := (g2 (by omega)).2 ⟨a, rfl⟩
    have w1 : CtlWF s1 := (g1 w).1
    cases a with
    | value v => exact (apiCatch_ctl (apiOk_bind (ev_apiOk P n _) fun _ => apiOk_pure _) hx w1).2 (by omega)
    | null =>
      cases hx
      exact ⟨by simp, fun _ => hl1⟩
    | failed k a =>
      cases hx
      exact ⟨by simp, fun _ => hl1⟩
  · have := ((apiCatch_ctl (parseText_ok t) he w).2 (by omega)).1
    exact ⟨this, fun ⟨v, hv⟩ => by cases hv⟩

theorem calls_ready {P : Prims σ} {s s' : St σ} (h : Ready s) (hc : Calls P s s') : Ready s' := by
  induction hc with
  | nil => exact h
  | cons hc _ ih => exact ih (call_ready h hc)

theorem apiCatch_run {body : EM σ ApiRes} {r : ApiRes} {s s2 : St σ} (hl : s.catches.length < 100)
    (hb : body { s with next := s.next + 1, catches := ⟨s.next, .bool true⟩ :: s.catches, live := s.next :: s.live } = some (.ok r, s2)) :
    ∃ s', apiCatch body s = some (.ok r, s') ∧ s'.catches = s2.catches.tail := by
  refine ⟨{ s2 with catches := s2.catches.tail, live := (s2.live.dropWhile (· ≠ s.next)).tail }, ?_, rfl⟩
  unfold apiCatch
  rw [getSt_bind, if_neg (by omega)]
  show EM.handle body _ { s with next := s.next + 1, catches := ⟨s.next, .bool true⟩ :: s.catches, live := s.next :: s.live } = _
  unfold EM.handle
  rw [hb]
  rfl

theorem ev_constant (P : Prims σ) {c : V} (hk : Constant c) (s : St σ) : ev P 1 (.eval 0 c) s = some (.ok c, s) := by
  cases c <;> first | exact absurd hk id | rfl

/-- After any number of calls, successful or failing, evaluating a constant succeeds and gives the constant. -/
theorem c84_usable {P : Prims σ} {s s' : St σ} (h : Ready s) (hc : Calls P s s') {c : V} (hk : Constant c) :
    ∃ s'', Call P s' (.datum c) (.value c) s'' := by
  have hr := (calls_ready h hc).room
  let s1 : St σ := { s' with next := s'.next + 1, catches := ⟨s'.next, .bool true⟩ :: s'.catches, live := s'.next :: s'.live }
  have hl1 : s1.catches.length < 100 := by show s'.catches.length + 1 < 100; omega
  obtain ⟨s3, h3, h3'⟩ := apiCatch_run (body := parseText (.datum c)) (s := s1) hl1 rfl
  have hl3 : s3.catches.length < 100 := by
    rw [h3']
    exact hl1
  have h5 : ∀ s, (ev P 1 (.eval 0 c) >>= fun v => pure (ApiRes.value v)) s = some (.ok (.value c), s) := by
    intro s
    rw [bind_apply, ev_constant P hk]
    rfl
  obtain ⟨s4, h4, _⟩ := apiCatch_run (s := s3) hl3 (h5 _)
  obtain ⟨s5, h6, _⟩ := apiCatch_run (s := s') (r := .value c) (body := pscmParse (.datum c) >>= evalParsed P 1) (s2 := s4) (by omega) (by
    rw [bind_eq_some]
    exact .inl ⟨_, s3, h3, h4⟩)
  exact ⟨s5, 1, h6⟩

/-- No error gets past the interface: the caller always gets control back with the null pointer and the recorded error, never an exit of the
process. -/
theorem c84_no_escape {P : Prims σ} {s : St σ} (h : Ready s) (n : Nat) (t : ReadRes) (tgt : Option Nat) (k : Name) (a : V) (s' : St σ) :
    pscmEvalString P n t s ≠ some (.stop (.err tgt k a), s') := by
  intro hc
  have hb : ApiOk (pscmParse t >>= evalParsed P n) := apiOk_bind (pscmParse_ok t) (evalParsed_ok P n)
  exact ((apiCatch_ctl hb hc h.wf).2 (by have := h.room; omega)).1 tgt k a rfl

/-- `(catch 'inner (lambda () (throw 'outer 1)) (lambda l 2))` -/
def Demo.leak : V :=
  Demo.l [Demo.y "catch", Demo.l [Demo.y "quote", Demo.y "inner"],
    Demo.l [Demo.y "lambda", .nil, Demo.l [Demo.y "throw", Demo.l [Demo.y "quote", Demo.y "outer"], Demo.n 1]],
    Demo.l [Demo.y "lambda", Demo.y "l", Demo.n 2]]

/-- `(catch #t (lambda () 1) (lambda l 2))` -/
def Demo.safe : V :=
  Demo.l [Demo.y "catch", .bool true, Demo.l [Demo.y "lambda", .nil, Demo.n 1], Demo.l [Demo.y "lambda", Demo.y "l", Demo.n 2]]

/-- The state after a call that returns. -/
def Demo.returned : Option (Out ApiRes × St Unit) → Option (St Unit)
  | some (.ok _, s) => some s
  | _ => Option.none

/-- The state after the call `f` was made `k` times and returned each time. -/
def Demo.again (f : St Unit → Option (Out ApiRes × St Unit)) : Nat → St Unit → Option (St Unit)
  | 0, s => some s
  | k + 1, s => (Demo.returned (f s)).bind (Demo.again f k)

theorem Demo.again_calls {n : Nat} {t : ReadRes} : ∀ {k : Nat} {s s' : St Unit}, Demo.again (pscmEvalString Demo.prims n t) k s = some s' →
    Calls Demo.prims s s'
  | 0, s, s', h => by cases h; exact .nil
  | k + 1, s, s', h => by
    have h : (Demo.returned (pscmEvalString Demo.prims n t s)).bind (Demo.again _ k) = some s' := h
    cases hf : pscmEvalString Demo.prims n t s with
    | none => rw [hf] at h; cases h
    | some r =>
      obtain ⟨o, s1⟩ := r
      rw [hf] at h
      cases o with
      | ok r => exact .cons ⟨n, hf⟩ (Demo.again_calls (k := k) h)
      | stop e => cases h

/-- The results of a call in the state after `k` calls of `f`. -/
def Demo.afterwards (f g : St Unit → Option (Out ApiRes × St Unit)) (k : Nat) : Option (Out ApiRes) :=
  (Demo.again f k Demo.s0).bind fun s => (g s).map Prod.fst

theorem Demo.afterwards_spec {f g : St Unit → Option (Out ApiRes × St Unit)} {k : Nat} {o : Out ApiRes}
    (h : Demo.afterwards f g k = some o) : ∃ s s', Demo.again f k Demo.s0 = some s ∧ g s = some (o, s') := by
  unfold Demo.afterwards at h
  cases hs : Demo.again f k Demo.s0 with
  | none => rw [hs] at h; cases h
  | some s =>
    rw [hs] at h
    simp only [Option.bind_some, Option.map_eq_some_iff] at h
    obtain ⟨⟨o', s'⟩, h1, rfl⟩ := h
    exact ⟨s, s', rfl, h1⟩

/-- More than constants cannot be promised: each call whose error passes an inner `catch` loses one of the 100 places of the catch stack, and
after 98 such calls an expression with a harmless `catch`, which succeeds in a fresh interpreter, fails. -/
theorem c84_catch_counterexample : (∃ s'', Call Demo.prims Demo.s0 (.datum Demo.safe) (.value (.num 1)) s'') ∧
    ∃ s' s'', Calls Demo.prims Demo.s0 s' ∧
      Call Demo.prims s' (.datum Demo.safe) (.failed "error" (listOf [.str "catch: too many nested catches"])) s'' := by
  constructor
  · have h : Demo.afterwards (pscmEvalString Demo.prims 12 (.datum Demo.leak)) (pscmEvalString Demo.prims 12 (.datum Demo.safe)) 0 =
        some (.ok (.value (.num 1))) := by decide +kernel
    obtain ⟨s, s', h1, h2⟩ := Demo.afterwards_spec h
    cases h1
    exact ⟨s', 12, h2⟩
  · have h : Demo.afterwards (pscmEvalString Demo.prims 12 (.datum Demo.leak)) (pscmEvalString Demo.prims 12 (.datum Demo.safe)) 98 =
        some (.ok (.failed "error" (listOf [.str "catch: too many nested catches"]))) := by decide +kernel
    obtain ⟨s, s', h1, h2⟩ := Demo.afterwards_spec h
    exact ⟨s, s', Demo.again_calls h1, 12, h2⟩

/-- Nor does the property hold for histories of `pscm_eval`: after 99 such calls `pscm_eval_string` fails even on a constant. -/
theorem c84_mixed_counterexample : ∃ s s', Demo.again (pscmEval Demo.prims 12 Demo.leak) 99 Demo.s0 = some s ∧
    pscmEvalString Demo.prims 12 (.datum (.num 1)) s = some (.ok (.failed "error" (listOf [.str "catch: too many nested catches"])), s') := by
  have h : Demo.afterwards (pscmEval Demo.prims 12 Demo.leak) (pscmEvalString Demo.prims 12 (.datum (.num 1))) 99 =
      some (.ok (.failed "error" (listOf [.str "catch: too many nested catches"]))) := by decide +kernel
  exact Demo.afterwards_spec h

/-- What does hold for mixed histories: `pscm_eval` always evaluates a constant. -/
theorem c84_eval {P : Prims σ} {s : St σ} (hl : s.catches.length ≤ 99) {c : V} (hk : Constant c) :
    ∃ s', pscmEval P 1 c s = some (.ok (.value c), s') ∧ s'.catches = s.catches := by
  obtain ⟨s', h, hs⟩ := apiCatch_run (s := s) (body := ev P 1 (.eval 0 c) >>= fun v => pure (ApiRes.value v)) (r := .value c) (by omega) (by
    rw [bind_apply, ev_constant P hk]
    rfl)
  exact ⟨s', h, hs⟩

/-- An error in evaluation is reported: the call returns and gives the key and the arguments of the error. -/
example : (pscmEvalString Demo.prims 12 (.datum Demo.leak) Demo.s0).map Prod.fst = some (.ok (.failed "outer" (listOf [.num 1]))) := by decide +kernel

example : Ready Demo.s0 := ⟨rfl, by simp [Demo.s0], by decide⟩

end Pscm.Ev
