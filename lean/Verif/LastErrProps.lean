import Verif.LastErrLemmas
import Verif.EvDemo
/-!
# C133: what the host reads after an error
-/
namespace Pscm
open Pscm.Ev
variable {σ : Type} {P : Prims σ}

/-- C133: after any history of calls, the key and the message the host reads are those of the most recent error: the name of the symbol thrown, and the
first text among the first two arguments of the throw; before the first error both are null. -/
theorem c133_last {s : St σ} {h : Host} {es : List (Name × V)} (u : Used P s h es) :
    (es = [] → h.read h.lastKey = .none ∧ h.read h.lastMessage = .none) ∧
    ∀ k args, es.getLast? = some (k, listOf args) → h.read h.lastKey = .text (cText k) ∧ h.read h.lastMessage = messageOf args := by
  have r := used_records u
  refine ⟨fun e => ?_, fun k args e => ?_⟩
  · rw [r.same e]
    exact ⟨rfl, rfl⟩
  · obtain ⟨h1, h2⟩ := r.last _ _ e
    exact ⟨h1, h2 args rfl⟩

/-- C133: the interface itself never deletes a text twice: if a call is undefined behaviour, then so is the evaluation it makes. -/
theorem c133_safe {s s' : St σ} {h : Host} {es : List (Name × V)} (u : Used P s h es) (m : EM σ ApiRes)
    (e : hostCall m h s = some (.stop .ub, s')) : m s = some (.stop .ub, s') := by
  unfold hostCall at e
  rw [bind_eq_some] at e
  rcases e with ⟨r, s1, h1, h2⟩ | ⟨x, h1, h2⟩
  · obtain ⟨a', es, h'', he, hd, hr⟩ := deliver_spec (used_records u).good r
    simp only [hd] at h2
    cases h2
  · cases h2
    exact h1

/-- C133: a text the host holds a pointer to is not touched by calls without errors. -/
theorem c133_kept {s s' : St σ} {h h' : Host} {es : List (Name × V)} {q : Ask} {n : Nat} {a : Answer} (u : Used P s h es)
    (e : hostAsk P n h q s = some (.ok (a, h'), s')) (hq : CallEnds P q s a [] s') (p : Option Nat) :
    h'.lastKey = h.lastKey ∧ h'.lastMessage = h.lastMessage ∧ h'.read p = h.read p := by
  obtain ⟨es', h1, h2⟩ := hostAsk_ok (used_records u).good e
  obtain ⟨-, e', -⟩ := callEnds_unique h1 hq
  rw [h2.same e']
  exact ⟨rfl, rfl, rfl⟩

/-- C133 fails for pointers held across an error: whatever the error, the texts returned before are deleted. -/
theorem c133_dangling {s s' : St σ} {h h' : Host} {es es' : List (Name × V)} {q : Ask} {n : Nat} {a : Answer} (u : Used P s h es)
    (e : hostAsk P n h q s = some (.ok (a, h'), s')) (hq : CallEnds P q s a es' s') (hne : es' ≠ []) (p : Nat)
    (hp : h.lastKey = some p ∨ h.lastMessage = some p) : h'.read (some p) = .dangling := by
  have g := (used_records u).good
  obtain ⟨es', h1, h2⟩ := hostAsk_ok g e
  obtain ⟨-, rfl, -⟩ := callEnds_unique h1 hq
  refine h2.dead hne p ?_
  have : ∃ t, h.bufs[p]? = some (some t) := by
    rcases hp with hp | hp
    · exact g.key p hp
    · exact g.msg p hp
  obtain ⟨t, ht⟩ := this
  rcases Nat.lt_or_ge p h.bufs.length with h | h
  · exact h
  · rw [List.getElem?_eq_none h] at ht; cases ht

/-- C133: nothing leaks: after any history, the only texts not deleted are those the two getters return. -/
theorem c133_leak {s : St σ} {h : Host} {es : List (Name × V)} (u : Used P s h es) (p : Nat) (t : String) (hp : h.bufs[p]? = some (some t)) :
    h.lastKey = some p ∨ h.lastMessage = some p := (used_records u).good.only p t hp

/-- C133: `pscm_eval` returns null exactly when the evaluation failed. -/
theorem c133_eval_null {s s' : St σ} {x : V} {a : Answer} {es : List (Name × V)} (hq : CallEnds P (.eval x) s a es s') : a = .null ↔ es ≠ [] := by
  cases hq with
  | eval n h1 h2 =>
    cases h2 with
    | value => simp
    | failed => simp
    | null => exact absurd rfl (pscmEval_not_null h1)

/-- C133: an error that the program does not catch, so that it is thrown to the boundary of `pscm_eval`, is the error the host reads. -/
theorem c133_uncaught {s s1 : St σ} {h : Host} {es : List (Name × V)} {x : V} {k : Name} {args : List V} (u : Used P s h es) (hl : s.catches.length < 100)
    (e : Evals P 0 x { s with next := s.next + 1, catches := ⟨s.next, .bool true⟩ :: s.catches, live := s.next :: s.live }
      (.stop (.err (some s.next) k (listOf args))) s1) :
    ∃ n h' s', hostAsk P n h (.eval x) s = some (.ok (.null, h'), s') ∧ h'.read h'.lastKey = .text (cText k) ∧ h'.read h'.lastMessage = messageOf args := by
  obtain ⟨n, e⟩ := e
  have h1 : ∃ s', pscmEval P n x s = some (.ok (.failed k (listOf args)), s') := by
    unfold pscmEval apiCatch
    rw [Ev.getSt_bind, if_neg (by omega)]
    show ∃ s', EM.handle (ev P n (.eval 0 x) >>= fun v => pure (ApiRes.value v)) _ { s with next := s.next + 1, catches := ⟨s.next, .bool true⟩ :: s.catches, live := s.next :: s.live } = some (_, s')
    unfold EM.handle
    rw [bind_apply, e]
    simp only [if_true]
    exact ⟨_, rfl⟩
  obtain ⟨s', h1⟩ := h1
  obtain ⟨a, es', h', he, hd, hr⟩ := deliver_spec (used_records u).good (.failed k (listOf args))
  cases he
  obtain ⟨g1, g2⟩ := hr.last _ _ rfl
  refine ⟨n, h', s', ?_, g1, g2 _ rfl⟩
  show hostCall _ h s = _
  unfold hostCall
  rw [bind_apply, h1]
  simp only [hd]
  rfl

/-! ## The faults -/

/-- `(throw 'oops "bad" 1)` -/
def Demo.oops : V := Ev.Demo.l [.sym "throw", quoted (.sym "oops"), .str "bad", .num 1]

/-- The state of host and interpreter after a list of calls, and the last answer. -/
def Demo.asks (P : Prims Unit) (n : Nat) : List Ask → Answer → Host → St Unit → Option (Answer × Host)
  | [], a, h, _ => some (a, h)
  | q :: qs, _, h, s =>
    match hostAsk P n h q s with
    | some (.ok (a, h'), s') => Demo.asks P n qs a h' s'
    | _ => none

/-- C133 fails as a test for failure: a call that returns null without any error (an empty text) leaves the error of an earlier call in place, so that
neither the null pointer nor the last error tells whether *this* call failed. -/
theorem c133_stale_counterexample : ∃ s h s', Used Demo.prims s h [("oops", listOf [.str "bad", .num 1])] ∧
    hostAsk Demo.prims 12 h (.evalString .nothing) s = some (.ok (.null, h), s') ∧ CallEnds Demo.prims (.evalString .nothing) s .null [] s' ∧
    h.read h.lastKey = .text "oops" :=
  ⟨_, _, _, .call (q := .eval Demo.oops) (n := 12) (a := .null) (es' := [("oops", listOf [.str "bad", .num 1])]) (.start (s := Demo.s0)) rfl
    (.eval 12 rfl .failed), rfl, .evalString 12 rfl .null, rfl⟩

/-- C133 fails for a file: `pscm_eval_file` returns a value although an expression failed; only the last error tells. -/
theorem c133_file_counterexample : ∃ h, Demo.asks (Demo.world [("f.scm", .exprs [Demo.oops, .num 5])]) 12 [.evalFile "f.scm"] .null .fresh Demo.s0 =
    some (.value (.num 5), h) ∧ h.read h.lastKey = .text "oops" ∧ h.read h.lastMessage = .text "bad" := ⟨_, rfl, rfl, rfl⟩

/-! ## The hypotheses are met -/

/-- Two errors; the host reads the second. -/
example : ∃ h, Demo.asks Demo.prims 12 [.eval Demo.oops, .eval (.sym "nowhere"), .eval (.num 1)] .null .fresh Demo.s0 = some (.value (.num 1), h) ∧
    h.read h.lastKey = .text "error" ∧ h.read h.lastMessage = .text "symbol not found" ∧ h.read (some 0) = .dangling := ⟨_, rfl, rfl, rfl, rfl⟩

/-- `Used` histories with an error exist, and the pointers are not null afterwards. -/
example : ∃ s h, Used Demo.prims s h [("oops", listOf [.str "bad", .num 1])] ∧ h.lastKey = some 0 ∧ h.lastMessage = some 1 :=
  ⟨_, _, .call (q := .eval Demo.oops) (n := 12) (a := .null) (es' := [("oops", listOf [.str "bad", .num 1])]) (.start (s := Demo.s0)) rfl
    (.eval 12 rfl .failed), rfl, rfl⟩

/-- An error with the message in the second place, and one without a message. -/
example : messageOf [.bool false, .str "m", .num 1] = .text (cText "m") ∧ messageOf [.num 1, .num 2, .str "m"] = .none ∧ messageOf [] = .none :=
  ⟨rfl, rfl, rfl⟩

/-- `c133_uncaught`: `(throw 'oops "bad" 1)`. -/
example : ∃ s1, Evals Demo.prims 0 Demo.oops { Demo.s0 with next := 1, catches := [⟨0, .bool true⟩], live := [0] }
    (.stop (.err (some 0) "oops" (listOf [.str "bad", .num 1]))) s1 := ⟨_, 12, rfl⟩

end Pscm
