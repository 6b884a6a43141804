import Verif.Throw
/-!
# C113: the message of an uncaught throw; C114: lazy catches
-/
namespace Pscm.Thr
open Rd

/-! ## C113 -/

/-- The message as it should be: program, key, arguments, newline. -/
def line (k : Key) (a : Args) : Bytes :=
  asc "pscm: uncaught throw to " ++ keyText k ++ asc ": " ++ argText a ++ [10]

theorem put_some {b : Buf} (h : b.pos ≤ 1024) (t : Bytes) : put (some b) t = some ⟨b.text ++ t.take (1023 - b.pos), b.pos + t.length⟩ := by
  simp [put, h]

/-- The buffer holds the first 1023 bytes of what was sent. -/
def Holds (b : Buf) (t : Bytes) : Prop := b.text = t.take 1023 ∧ b.pos = t.length

theorem put_holds {b : Buf} {t : Bytes} (h : Holds b t) (u : Bytes) (hl : t.length ≤ 1024) : ∃ b', put (some b) u = some b' ∧ Holds b' (t ++ u) := by
  obtain ⟨h1, h2⟩ := h
  refine ⟨_, put_some (by omega) u, ?_, ?_⟩
  · show b.text ++ u.take (1023 - b.pos) = _
    rw [h1, h2, List.take_append]
  · show b.pos + u.length = _
    rw [h2, List.length_append]

theorem put_over {b : Buf} {t : Bytes} (h : Holds b t) (u : Bytes) (hl : 1024 < t.length) : put (some b) u = none := by
  have : ¬ b.pos ≤ 1024 := by rw [h.2]; omega
  simp [put, this]

/-- The text sent before the final newline. -/
def body (k : Key) (a : Args) : Bytes := asc "pscm: uncaught throw to " ++ keyText k ++ asc ": " ++ argText a

theorem message_cases (k : Key) (a : Args) :
    ((asc "pscm: uncaught throw to " ++ keyText k ++ asc ": ").length ≤ 1024 ∧ (body k a).length ≤ 1024 → message none k a = some ((line k a).take 1023)) ∧
    (1024 < (body k a).length → message none k a = none) := by
  have e0 : cstr ((none : Option Bytes).getD (asc "pscm")) ++ asc ": uncaught throw to " = asc "pscm: uncaught throw to " := by decide +kernel
  have hlen0 : (asc "pscm: uncaught throw to ").length = 24 := by decide +kernel
  have hlen2 : (asc ": ").length = 2 := by decide +kernel
  have hb0 : Holds {} [] := ⟨rfl, rfl⟩
  obtain ⟨b1, p1, g1⟩ := put_holds hb0 (asc "pscm: uncaught throw to ") (by simp)
  rw [List.nil_append] at g1
  obtain ⟨b2, p2, g2⟩ := put_holds g1 (keyText k) (by omega)
  unfold message
  rw [e0, p1, p2]
  by_cases h2 : (asc "pscm: uncaught throw to " ++ keyText k).length ≤ 1024
  · obtain ⟨b3, p3, g3⟩ := put_holds g2 (asc ": ") h2
    rw [p3]
    by_cases h3 : (asc "pscm: uncaught throw to " ++ keyText k ++ asc ": ").length ≤ 1024
    · obtain ⟨b4, p4, g4⟩ := put_holds g3 (argText a) h3
      rw [p4]
      constructor
      · rintro ⟨_, h4⟩
        obtain ⟨b5, p5, g5⟩ := put_holds g4 [10] h4
        rw [p5]
        show some b5.text = _
        rw [g5.1]
        rfl
      · intro h4
        rw [put_over g4 [10] h4]
        rfl
    · rw [put_over g3 _ (by omega)]
      exact ⟨fun h => absurd h.1 h3, fun _ => rfl⟩
  · rw [put_over g2 _ (by omega)]
    refine ⟨fun h => absurd h.1 (by simp only [List.length_append] at h2 ⊢; omega), fun _ => rfl⟩

theorem message_short (k : Key) (a : Args) (h : (line k a).length ≤ 1023) : uncaught k a = .exit 1 (line k a) := by
  have hb : (body k a).length ≤ 1024 := by
    have : (line k a).length = (body k a).length + 1 := by simp [line, body]; omega
    omega
  have := (message_cases k a).1 ⟨by unfold body at hb; simp only [List.length_append] at hb ⊢; omega, hb⟩
  rw [List.take_of_length_le h] at this
  simp [uncaught, this]

/-- C113: an uncaught `(throw 'name "text" …)` prints the name and the text and ends the process with status 1.  Partial: the line has at most
1023 bytes, without NUL. -/
theorem c113_message_partial (name txt : Bytes) (hn : (0 : UInt8) ∉ name) (ht : (0 : UInt8) ∉ txt) (h : name.length + txt.length ≤ 995) :
    uncaught (.sym name) (.string txt) = .exit 1 (asc "pscm: uncaught throw to '" ++ name ++ asc ": " ++ txt ++ asc "\n") := by
  have hc : ∀ s : Bytes, (0 : UInt8) ∉ s → cstr s = s := by
    intro s hs
    induction s with
    | nil => rfl
    | cons c s ih =>
      have h0 : (c != 0) = true := by simp; rintro rfl; exact hs (by simp)
      have := ih fun h => hs (by simp [h])
      rw [cstr] at this ⊢
      rw [List.takeWhile_cons, if_pos h0, this]
  have e : line (.sym name) (.string txt) = asc "pscm: uncaught throw to '" ++ name ++ asc ": " ++ txt ++ asc "\n" := by
    have e1 : asc "pscm: uncaught throw to '" = asc "pscm: uncaught throw to " ++ [39] := by decide +kernel
    have e2 : asc "\n" = [10] := by decide +kernel
    rw [e1, e2]
    simp [line, keyText, argText, hc name hn, hc txt ht]
  rw [message_short, e]
  rw [e]
  have l1 : (asc "pscm: uncaught throw to '").length = 25 := by decide +kernel
  have l2 : (asc ": ").length = 2 := by decide +kernel
  have l3 : (asc "\n").length = 1 := by decide +kernel
  simp only [List.length_append, l1, l2, l3]
  omega

/-- C113: exactly when it is defined: a longer line is cut after 1023 bytes if it has at most 1025; beyond that the message is written outside of
its buffer. -/
theorem c113_defined (k : Key) (a : Args) :
    ((line k a).length ≤ 1025 → uncaught k a = .exit 1 ((line k a).take 1023)) ∧ (1025 < (line k a).length → uncaught k a = .ub) := by
  have hl : (line k a).length = (body k a).length + 1 := by simp [line, body]; omega
  constructor
  · intro h
    have hb : (body k a).length ≤ 1024 := by omega
    have := (message_cases k a).1 ⟨by unfold body at hb; simp only [List.length_append] at hb ⊢; omega, hb⟩
    simp [uncaught, this]
  · intro h
    have := (message_cases k a).2 (by omega)
    simp [uncaught, this]

/-- C113 (violation): a message of 1000 characters for the key `k` is undefined behaviour. -/
theorem c113_counterexample : uncaught (.sym (asc "k")) (.string (List.replicate 1000 97)) = .ub := by
  refine (c113_defined _ _).2 ?_
  have e : cstr (List.replicate 1000 97) = List.replicate 1000 97 := by decide +kernel
  have e2 : (asc "pscm: uncaught throw to ").length = 24 := by decide +kernel
  have e3 : (asc ": ").length = 2 := by decide +kernel
  have e4 : (keyText (.sym (asc "k"))).length = 2 := by decide +kernel
  simp only [line, argText, e, List.length_append, List.length_replicate, e2, e3, e4, List.length_cons, List.length_nil]
  decide

/-- `(throw 'my-key "text")` without a catch. -/
example : uncaught (.sym (asc "my-key")) (.string (asc "text")) = .exit 1 (asc "pscm: uncaught throw to 'my-key: text\n") := by decide +kernel

/-! ## C114 -/

/-- A chain with entries of the two kinds only. -/
def Known (c : List T) : Prop := ∀ e ∈ c, e = guardEntry ∨ ∃ t i, e = lazyEntry t i

theorem scan_known {c : List T} (h : Known c) (k : String) : lazyScan k c = none := by
  induction c with
  | nil => rfl
  | cons e c ih =>
    have he : lazyIndex k e = none := by
      rcases h e (.head _) with rfl | ⟨t, i, rfl⟩
      · simp [lazyIndex, guardEntry, tagsMatch]
      · simp only [lazyIndex, lazyEntry]
        split <;> rfl
    rw [lazyScan, he]
    exact ih fun e he => h e (.tail _ he)

theorem run_known (p : Prog) : ∀ s, Known s.chain → Known (run p s).2.chain ∧ (run p s).2.calls = s.calls ∧ (run p s).1 ≠ .ub := by
  induction p with
  | ret v => intro s h; exact ⟨h, rfl, by simp [run]⟩
  | throw k => intro s h; simp only [run, scan_known h]; exact ⟨h, trivial, by simp⟩
  | seq p q ihp ihq =>
    intro s h
    obtain ⟨h1, h2, h3⟩ := ihp s h
    rw [run]
    cases hr : run p s with
    | mk r s' =>
      rw [hr] at h1 h2 h3
      cases r with
      | val v => obtain ⟨g1, g2, g3⟩ := ihq s' h1; exact ⟨g1, g2.trans h2, g3⟩
      | thrown k => exact ⟨h1, h2, h3⟩
      | ub => exact absurd rfl h3
  | catchAll p v ih =>
    intro s h
    obtain ⟨h1, h2, h3⟩ := ih s h
    rw [run]
    cases hr : run p s with
    | mk r s' =>
      rw [hr] at h1 h2 h3
      cases r with
      | val v => exact ⟨h1, h2, h3⟩
      | thrown k => exact ⟨h1, h2, by simp⟩
      | ub => exact absurd rfl h3
  | lazy tag p ih =>
    intro s h
    rw [run]
    split
    · rw [scan_known h]; exact ⟨h, rfl, by simp⟩
    · have hk : Known (lazyEntry tag s.top :: s.chain) := by
        intro e he
        rcases List.mem_cons.1 he with rfl | he
        · exact .inr ⟨_, _, rfl⟩
        · exact h e he
      obtain ⟨h1, h2, h3⟩ := ih { s with chain := lazyEntry tag s.top :: s.chain, top := s.top + 1 } hk
      cases hr : run p { s with chain := lazyEntry tag s.top :: s.chain, top := s.top + 1 } with
      | mk r s' =>
        rw [hr] at h1 h2 h3
        cases r with
        | val v => exact ⟨h, h2, by simp⟩
        | thrown k => exact ⟨h1, h2, h3⟩
        | ub => exact absurd rfl h3
  | wind p ih =>
    intro s h
    rw [run]
    have hk : Known (guardEntry :: s.chain) := by
      intro e he
      rcases List.mem_cons.1 he with rfl | he
      · exact .inl rfl
      · exact h e he
    obtain ⟨h1, h2, h3⟩ := ih { s with chain := guardEntry :: s.chain } hk
    cases hr : run p { s with chain := guardEntry :: s.chain } with
    | mk r s' =>
      rw [hr] at h1 h2 h3
      cases r with
      | val v => exact ⟨h, h2, by simp⟩
      | thrown k => exact ⟨h1, h2, h3⟩
      | ub => exact absurd rfl h3

/-- The program without its lazy catches. -/
def strip : Prog → Prog
  | .ret v => .ret v
  | .throw k => .throw k
  | .seq p q => .seq (strip p) (strip q)
  | .catchAll p v => .catchAll (strip p) v
  | .lazy _ p => strip p
  | .wind p => .wind (strip p)

/-- The number of lazy catches in the text of the program. -/
def lazies : Prog → Nat
  | .ret _ => 0
  | .throw _ => 0
  | .seq p q => lazies p + lazies q
  | .catchAll p _ => lazies p
  | .lazy _ p => lazies p + 1
  | .wind p => lazies p

/-- C114 (violation): the handler of a lazy catch is never called, whatever the program does. -/
theorem c114_counterexample (p : Prog) : (run p {}).2.calls = [] := (run_known p {} (fun _ h => absurd h (by simp))).2.1

theorem run_strip (p : Prog) : ∀ s s', Known s.chain → Known s'.chain → s.top + lazies p ≤ 100 →
    (run p s).1 = (run (strip p) s').1 ∧ (run p s).2.top ≤ s.top + lazies p := by
  induction p with
  | ret v => intro s s' _ _ h; exact ⟨rfl, by simp [run, lazies]⟩
  | throw k => intro s s' h1 h2 _; simp [run, strip, scan_known h1, scan_known h2, lazies]
  | seq p q ihp ihq =>
    intro s s' h1 h2 hl
    simp only [lazies] at hl ⊢
    obtain ⟨e, t⟩ := ihp s s' h1 h2 (by omega)
    have k1 := (run_known p s h1).1
    have k2 := (run_known (strip p) s' h2).1
    simp only [run, strip]
    cases hr : run p s with
    | mk r a =>
      cases hr' : run (strip p) s' with
      | mk r' a' =>
        rw [hr] at e t k1
        rw [hr'] at e k2
        obtain rfl : r = r' := e
        cases r with
        | val v =>
          obtain ⟨e2, t2⟩ := ihq a a' k1 k2 (by simp only at t; omega)
          exact ⟨e2, by simp only at t t2 ⊢; omega⟩
        | thrown k => exact ⟨rfl, by simp only at t ⊢; omega⟩
        | ub => exact ⟨rfl, by simp only at t ⊢; omega⟩
  | catchAll p v ih =>
    intro s s' h1 h2 hl
    simp only [lazies] at hl ⊢
    obtain ⟨e, t⟩ := ih s s' h1 h2 (by omega)
    simp only [run, strip]
    cases hr : run p s with
    | mk r a =>
      cases hr' : run (strip p) s' with
      | mk r' a' =>
        rw [hr] at e t
        rw [hr'] at e
        obtain rfl : r = r' := e
        cases r <;> exact ⟨rfl, t⟩
  | lazy tag p ih =>
    intro s s' h1 h2 hl
    simp only [lazies] at hl ⊢
    have hk : Known (lazyEntry tag s.top :: s.chain) := by
      intro e he
      rcases List.mem_cons.1 he with rfl | he
      · exact .inr ⟨_, _, rfl⟩
      · exact h1 e he
    obtain ⟨e, t⟩ := ih { s with chain := lazyEntry tag s.top :: s.chain, top := s.top + 1 } s' hk h2 (by simp only; omega)
    simp only [run, strip]
    rw [if_neg (by omega)]
    cases hr : run p { s with chain := lazyEntry tag s.top :: s.chain, top := s.top + 1 } with
    | mk r a =>
      cases hr' : run (strip p) s' with
      | mk r' a' =>
        rw [hr] at e t
        rw [hr'] at e
        obtain rfl : r = r' := e
        cases r
        · exact ⟨rfl, by simp only at t ⊢; omega⟩
        · exact ⟨rfl, by simp only at t ⊢; omega⟩
        · exact ⟨rfl, by simp only at t ⊢; omega⟩
  | wind p ih =>
    intro s s' h1 h2 hl
    simp only [lazies] at hl ⊢
    have hk : ∀ c, Known c → Known (guardEntry :: c) := by
      intro c h e he
      rcases List.mem_cons.1 he with rfl | he
      · exact .inl rfl
      · exact h e he
    obtain ⟨e, t⟩ := ih { s with chain := guardEntry :: s.chain } { s' with chain := guardEntry :: s'.chain } (hk _ h1) (hk _ h2) hl
    simp only [run, strip]
    cases hr : run p { s with chain := guardEntry :: s.chain } with
    | mk r a =>
      cases hr' : run (strip p) { s' with chain := guardEntry :: s'.chain } with
      | mk r' a' =>
        rw [hr] at e t
        rw [hr'] at e
        obtain rfl : r = r' := e
        cases r <;> exact ⟨rfl, t⟩

/-- C114: what remains true: a lazy catch does not change the result of its body; a throw passes it as if it were not there.  Partial: the handler is
not called (`c114_counterexample`), and at most 100 lazy catches are executed (`c114_leak_counterexample`). -/
theorem c114_transparent_partial (p : Prog) (h : lazies p ≤ 100) : (run p {}).1 = (run (strip p) {}).1 := by
  have hn : Known ({} : St).chain := fun _ h => absurd h (by simp)
  exact (run_strip p {} {} hn hn (by simpa using h)).1

/-- No throw in the program. -/
def silent : Prog → Bool
  | .ret _ => true
  | .throw _ => false
  | .seq p q => silent p && silent q
  | .catchAll p _ | .lazy _ p | .wind p => silent p

/-- The number of lazy catches inside one another. -/
def nesting : Prog → Nat
  | .ret _ | .throw _ => 0
  | .seq p q => max (nesting p) (nesting q)
  | .catchAll p _ | .wind p => nesting p
  | .lazy _ p => nesting p + 1

/-- C114: a program without throws, whatever the number of its lazy catches, gives a value and leaves the wind chain and the table of lazy catches as they
were, provided that not more than 100 are active at a time. -/
theorem c114_balanced (p : Prog) : ∀ s : St, silent p = true → s.top + nesting p ≤ 100 → ∃ v, run p s = (.val v, s) := by
  induction p with
  | ret v => intro s _ _; exact ⟨v, rfl⟩
  | throw k => intro s h; cases h
  | seq p q ihp ihq =>
    intro s h hn
    simp only [silent, Bool.and_eq_true, nesting] at h hn
    obtain ⟨v, e⟩ := ihp s h.1 (by omega)
    obtain ⟨w, e'⟩ := ihq s h.2 (by omega)
    exact ⟨w, by rw [run, e]; exact e'⟩
  | catchAll p v ih =>
    intro s h hn
    obtain ⟨w, e⟩ := ih s h hn
    exact ⟨w, by rw [run, e]⟩
  | lazy tag p ih =>
    intro s h hn
    simp only [silent, nesting] at h hn
    obtain ⟨w, e⟩ := ih { s with chain := lazyEntry tag s.top :: s.chain, top := s.top + 1 } h (by simp only; omega)
    refine ⟨w, ?_⟩
    rw [run, if_neg (by omega), e]
    simp
  | wind p ih =>
    intro s h hn
    obtain ⟨w, e⟩ := ih { s with chain := guardEntry :: s.chain } h hn
    exact ⟨w, by rw [run, e]⟩

example : silent (.seq (.lazy "a" (.lazy "b" (.ret 1))) (.wind (.lazy "c" (.ret 2)))) = true ∧
    nesting (.seq (.lazy "a" (.lazy "b" (.ret 1))) (.wind (.lazy "c" (.ret 2)))) = 2 := by decide

/-- A lazy catch left by a throw that is caught outside, `n` times, and then `p`. -/
def leaks : Nat → Prog → Prog
  | 0, p => p
  | n + 1, p => .seq (.catchAll (.lazy "#t" (.throw "k")) 0) (leaks n p)

/-- C114 (violation): a throw that leaves a lazy catch leaks its slot: after 100 of them every lazy catch fails, also one whose body
just returns. -/
theorem c114_leak_counterexample : (run (leaks 100 (.lazy "k" (.ret 1))) {}).1 = .thrown "error" ∧ (run (leaks 99 (.lazy "k" (.ret 1))) {}).1 = .val 1 := by
  have key : ∀ (n : Nat) (q : Prog) (s : St), Known s.chain → s.top + n ≤ 100 → ∃ s', Known s'.chain ∧ s'.top = s.top + n ∧ run (leaks n q) s = run q s' := by
    intro n
    induction n with
    | zero => intro q s h _; exact ⟨s, h, rfl, rfl⟩
    | succ n ih =>
      intro q s h hl
      have hk : Known (lazyEntry "#t" s.top :: s.chain) := by
        intro e he
        rcases List.mem_cons.1 he with rfl | he
        · exact .inr ⟨_, _, rfl⟩
        · exact h e he
      have e : run (.catchAll (.lazy "#t" (.throw "k")) 0) s =
          (.val 0, { s with chain := lazyEntry "#t" s.top :: s.chain, top := s.top + 1 }) := by
        have hk' := scan_known hk "k"
        simp only [run, if_neg (show ¬ s.top ≥ 100 by omega), hk']
      obtain ⟨s', h1, h2, h3⟩ := ih q { s with chain := lazyEntry "#t" s.top :: s.chain, top := s.top + 1 } hk (by simp only; omega)
      refine ⟨s', h1, by simp only at h2; omega, ?_⟩
      rw [leaks, run, e]
      exact h3
  have hn : Known ({} : St).chain := fun _ h => absurd h (by simp)
  constructor
  · obtain ⟨s', h1, h2, h3⟩ := key 100 (.lazy "k" (.ret 1)) {} hn (by decide)
    have h2' : s'.top = 100 := h2
    rw [h3, run, if_pos (by omega), scan_known h1]
  · obtain ⟨s', h1, h2, h3⟩ := key 99 (.lazy "k" (.ret 1)) {} hn (by decide)
    have h2' : s'.top = 99 := h2
    rw [h3, run, if_neg (by omega)]
    rfl

/-- A program in which the handler should be called: a throw inside a lazy catch inside a catch. -/
example : (run (.catchAll (.lazy "k" (.seq (.throw "k") (.ret 5))) 7) {}).1 = .val 7 ∧ lazies (.catchAll (.lazy "k" (.seq (.throw "k") (.ret 5))) 7) ≤ 100 := by
  decide +kernel

end Pscm.Thr
