import Verif.EvExt
import Verif.EvLemmas
/-!
# What every evaluation does to the control state

`CtlOk`, `CtlStop` relate the catch stack and the C stack before and after any evaluation; `run_ctl_ok`, `run_ctl_stop` prove
them for every task, every family of builtins and every state.
-/
namespace Pscm.Ev
variable {σ α β : Type}
open EM (stop getSt modSt)

/-- Activation numbers in use are below the counter. -/
structure CtlWF (s : St σ) : Prop where
  catches : ∀ c ∈ s.catches, c.id < s.next
  live : ∀ i ∈ s.live, i < s.next

/-- The error with key `k` that leaves `s` is directed at the innermost matching entry of the catch stack of `s`. -/
def Innermost (s : St σ) (id : Nat) (k : Name) : Prop :=
  ∃ pre c post, s.catches = pre ++ c :: post ∧ c.id = id ∧ id ∈ s.live ∧ tagMatches c.tag k = true ∧
    ∀ p ∈ pre, tagMatches p.tag k = false

/-- Where control goes when it leaves `s`. -/
def StopOk (s : St σ) : Stop → Prop
  | .err (some id) k _ => Innermost s id k
  | .err Option.none k _ => ∀ c ∈ s.catches, tagMatches c.tag k = false
  | _ => True

/-- Entries added to the catch stack: they belong to activations newer than `s`. -/
def Leaked (s s' : St σ) : Prop := ∃ l, s'.catches = l ++ s.catches ∧ ∀ c ∈ l, s.next ≤ c.id

/-- Evaluation that returns. -/
def CtlOk (s s' : St σ) : Prop := CtlWF s → CtlWF s' ∧ s.next ≤ s'.next ∧ s'.live = s.live ∧ Leaked s s'

/-- Evaluation that leaves by `e`. -/
def CtlStop (s : St σ) (e : Stop) (s' : St σ) : Prop := CtlWF s → CtlWF s' ∧ s.next ≤ s'.next ∧
  (∃ l, s'.live = l ++ s.live ∧ ∀ i ∈ l, s.next ≤ i) ∧ Leaked s s' ∧ StopOk s e

theorem Leaked.refl (s : St σ) : Leaked s s := ⟨[], rfl, by simp⟩

theorem Leaked.trans {a b c : St σ} (h : Leaked a b) (hn : a.next ≤ b.next) (k : Leaked b c) : Leaked a c := by
  obtain ⟨l, hl, h1⟩ := h
  obtain ⟨m, hm, h2⟩ := k
  refine ⟨m ++ l, by rw [hm, hl, List.append_assoc], ?_⟩
  intro x hx
  rcases List.mem_append.1 hx with hx | hx
  · exact Nat.le_trans hn (h2 x hx)
  · exact h1 x hx

theorem append_cons_cases {α : Type} {l m pre post : List α} {c : α} (h : l ++ m = pre ++ c :: post) :
    c ∈ l ∨ ∃ p, pre = l ++ p ∧ m = p ++ c :: post := by
  rcases List.append_eq_append_iff.1 h with ⟨p, h1, h2⟩ | ⟨p, h1, h2⟩
  · exact .inr ⟨p, h1, h2⟩
  · cases p with
    | nil => exact .inr ⟨[], by simpa using h1.symm, by simpa using h2.symm⟩
    | cons x xs =>
      simp only [List.cons_append, List.cons.injEq] at h2
      exact .inl (by rw [h1, h2.1]; simp)

/-- An error directed at an activation that is live before cannot be directed at a leaked entry. -/
theorem StopOk.back {a b : St σ} {e : Stop} (hw : CtlWF a) (hl : b.live = a.live) (hk : Leaked a b) (h : StopOk b e) : StopOk a e := by
  obtain ⟨l, hl1, hl2⟩ := hk
  cases e with
  | err tgt k args =>
    cases tgt with
    | none => intro c hc; exact h c (by rw [hl1]; simp [hc])
    | some id =>
      obtain ⟨pre, c, post, h1, h2, h3, h4, h5⟩ := h
      rw [hl1] at h1
      rw [hl] at h3
      rcases append_cons_cases h1 with hc | ⟨p, hp, hm⟩
      · have := hl2 c hc
        have := hw.live id h3
        omega
      · exact ⟨p, c, post, hm, h2, h3, h4, fun x hx => h5 x (by rw [hp]; simp [hx])⟩
  | _ => trivial

theorem dropWhile_live {id : Nat} {l m : List Nat} (h : ∀ i ∈ l, id < i) : (l ++ id :: m).dropWhile (· ≠ id) = id :: m := by
  induction l with
  | nil => simp
  | cons x xs ih =>
    have hx : x ≠ id := by have := h x (by simp); omega
    rw [List.cons_append, List.dropWhile_cons]
    simp only [ne_eq, hx, not_false_eq_true, decide_true, if_true]
    exact ih fun i hi => h i (by simp [hi])

theorem scan_spec (live : List Nat) (k : Name) (cs : List Catch) :
    match scan live k cs with
    | .catch id => ∃ pre c post, cs = pre ++ c :: post ∧ c.id = id ∧ id ∈ live ∧ tagMatches c.tag k = true ∧
        ∀ p ∈ pre, tagMatches p.tag k = false
    | .uncaught => ∀ c ∈ cs, tagMatches c.tag k = false
    | .dangling => True := by
  induction cs with
  | nil => simp [scan]
  | cons c cs ih =>
    unfold scan
    by_cases hc : c.id ∈ live
    · rw [if_pos hc]
      cases hm : tagMatches c.tag k with
      | true =>
        simp only [if_true]
        exact ⟨[], c, cs, rfl, rfl, hc, hm, by simp⟩
      | false =>
        simp only [Bool.false_eq_true, if_false]
        cases hsc : scan live k cs <;> rw [hsc] at ih <;> simp only at ih ⊢
        · obtain ⟨pre, d, post, h1, h2, h3, h4, h5⟩ := ih
          refine ⟨c :: pre, d, post, by simp [h1], h2, h3, h4, ?_⟩
          intro p hp
          rcases List.mem_cons.1 hp with rfl | hp
          · exact hm
          · exact h5 p hp
        · intro d hd
          rcases List.mem_cons.1 hd with rfl | hd
          · exact hm
          · exact ih d hd
    · rw [if_neg hc]; trivial

theorem ctl_thr (s : St σ) (k : Name) (a : V) : StopOk s (throwStop s k a) := by
  have := scan_spec s.live k s.catches
  unfold throwStop
  split <;> rename_i h <;> rw [h] at this
  · exact this
  · exact this
  · trivial

theorem CtlOk.same {s s' : St σ} (h1 : s'.next = s.next) (h2 : s'.live = s.live) (h3 : s'.catches = s.catches) : CtlOk s s' := by
  intro w
  refine ⟨⟨?_, ?_⟩, by omega, h2, [], by simp [h3], by simp⟩
  · rw [h3, h1]; exact w.catches
  · rw [h2, h1]; exact w.live

theorem ctlStop_of_ok {a b : St σ} {e : Stop} {c : St σ} (h : CtlOk a b) (k : CtlStop b e c) : CtlStop a e c := by
  intro w
  obtain ⟨wb, hn, hl, hk⟩ := h w
  obtain ⟨wc, hn', ⟨l, hl1, hl2⟩, hk', hs⟩ := k wb
  exact ⟨wc, by omega, ⟨l, by rw [hl1, hl], fun i hi => Nat.le_trans hn (hl2 i hi)⟩, hk.trans hn hk', hs.back w hl hk⟩

/-- The body of an activation `id` that has just been entered: a continuation or a catch. -/
theorem ctl_enter_stop {s s1 s2 : St σ} {e : Stop} (h : CtlStop s1 e s2) (w : CtlWF s) (w1 : CtlWF s1) (hn : s1.next = s.next + 1)
    (hl : s1.live = s.next :: s.live) (hc : Leaked s s1) :
    CtlWF s2 ∧ s.next ≤ s2.next ∧ (∃ l, s2.live = l ++ s.live ∧ ∀ i ∈ l, s.next ≤ i) ∧ Leaked s s2 ∧
      s2.live.dropWhile (· ≠ s.next) = s.next :: s.live ∧ StopOk s1 e := by
  obtain ⟨w2, h1, ⟨l, h2, h3⟩, h4, h5⟩ := h w1
  refine ⟨w2, by omega, ⟨l ++ [s.next], by rw [h2, hl]; simp, ?_⟩, hc.trans (by omega) h4, ?_, h5⟩
  · intro i hi
    rcases List.mem_append.1 hi with hi | hi
    · have := h3 i hi; omega
    · simp at hi; omega
  · rw [h2, hl]
    apply dropWhile_live
    intro i hi
    have := h3 i hi; omega

/-- Stops that pass through an activation. -/
theorem StopOk.through {s s1 : St σ} {e : Stop} (w : CtlWF s) (hl : s1.live = s.next :: s.live) (hc : Leaked s s1)
    (h : StopOk s1 e) (hne : ∀ k a, e ≠ .err (some s.next) k a) : StopOk s e := by
  obtain ⟨l, hl1, hl2⟩ := hc
  cases e with
  | err tgt k args =>
    cases tgt with
    | none => intro c hc; exact h c (by rw [hl1]; simp [hc])
    | some id =>
      obtain ⟨pre, c, post, h1, h2, h3, h4, h5⟩ := h
      rw [hl1] at h1
      rw [hl] at h3
      have hid : id ≠ s.next := fun hh => hne k args (by rw [hh])
      have h3' : id ∈ s.live := by simpa [hid] using h3
      rcases append_cons_cases h1 with hc | ⟨p, hp, hm⟩
      · have := hl2 c hc
        have := w.live id h3'
        omega
      · exact ⟨p, c, post, hm, h2, h3', h4, fun x hx => h5 x (by rw [hp]; simp [hx])⟩
  | _ => trivial

theorem leaked_tail {s s1 s2 : St σ} (h : Leaked s s1) (h1 : s1.catches ≠ s.catches) (h2 : s2.catches = s1.catches.tail) : Leaked s s2 := by
  obtain ⟨l, hl, hk⟩ := h
  cases l with
  | nil => exact absurd (by simpa using hl) h1
  | cons x xs => exact ⟨xs, by rw [h2, hl]; rfl, fun c hc => hk c (by simp [hc])⟩

theorem leaked_wf {s s2 : St σ} (h : Leaked s s2) {m : Nat} (hm : ∀ c ∈ s2.catches, c.id < m) : ∀ c ∈ s.catches, c.id < m := by
  obtain ⟨l, hl, _⟩ := h
  intro c hc
  exact hm c (by rw [hl]; simp [hc])

theorem handle_eq_some {x : EM σ α} {f : Out α → EM σ β} {s : St σ} {r} (h : EM.handle x f s = some r) :
    ∃ o s1, x s = some (o, s1) ∧ f o s1 = some r := by
  unfold EM.handle at h
  cases hx : x s with
  | none => rw [hx] at h; cases h
  | some q => rw [hx] at h; exact ⟨q.1, q.2, rfl, h⟩

/-- The relation for a result of either kind. -/
def CtlRes (s : St σ) (r : Out α × St σ) : Prop :=
  match r.1 with
  | .ok _ => CtlOk s r.2
  | .stop e => CtlStop s e r.2

theorem ctl_pop {s s1 s2 : St σ} {c : Catch} (h : Leaked s1 s2) (hc : s1.catches = c :: s.catches) (hid : s.next ≤ c.id)
    (hn : s.next ≤ s1.next) : ∃ l, s2.catches.tail = l ++ s.catches ∧ ∀ c ∈ l, s.next ≤ c.id := by
  obtain ⟨l, hl, hk⟩ := h
  rw [hl, hc]
  cases l with
  | nil => exact ⟨[], rfl, by simp⟩
  | cons x xs =>
    refine ⟨xs ++ [c], by simp, ?_⟩
    intro d hd
    rcases List.mem_append.1 hd with hd | hd
    · have := hk d (by simp [hd]); omega
    · simp at hd; subst hd; exact hid

/-- The frame of activation `s.next` returns. -/
theorem ctl_leave {s s2 s3 : St σ} (w : CtlWF s) (w2 : CtlWF s2) (hn : s.next ≤ s2.next) (hk : Leaked s s3)
    (hsub : ∀ c ∈ s3.catches, c ∈ s2.catches) (hl : s3.live = s.live) (hn3 : s3.next = s2.next) : CtlOk s s3 := by
  intro _
  refine ⟨⟨fun c hc => ?_, fun i hi => ?_⟩, by omega, hl, hk⟩
  · rw [hn3]; exact w2.catches c (hsub c hc)
  · rw [hl] at hi; have := w.live i hi; omega

/-- The relation as an instance of the generic preservation theorem. -/
def ctlRel (σ : Type) : StRel σ where
  Rok := CtlOk
  Rst := CtlStop
  refl := fun s => .same rfl rfl rfl
  halt := fun s e he w => ⟨w, Nat.le_refl _, ⟨[], rfl, by simp⟩, .refl s, by rcases he with rfl | rfl | rfl <;> trivial⟩
  thr := fun s k a w => ⟨w, Nat.le_refl _, ⟨[], rfl, by simp⟩, .refl s, ctl_thr s k a⟩
  esc := fun s i v hi w => ⟨w, Nat.le_refl _, ⟨[], rfl, by simp⟩, .refl s, trivial⟩
  trans := by
    intro a b c h k w
    obtain ⟨wb, hn, hl, hk⟩ := h w
    obtain ⟨wc, hn', hl', hk'⟩ := k wb
    exact ⟨wc, by omega, hl'.trans hl, hk.trans hn hk'⟩
  trans_st := fun a b e c h k => ctlStop_of_ok h k
  push := fun s p f _ _ => .same rfl rfl rfl
  upd := fun s e g _ => .same rfl rfl rfl
  modsAt := fun s _ _ _ => .same rfl rfl rfl
  modsUse := fun s _ _ => .same rfl rfl rfl
  modsExport := fun s _ _ _ => .same rfl rfl rfl
  modsNew := fun s _ => .same rfl rfl rfl
  setCur := fun s _ => .same rfl rfl rfl
  delay := fun s _ _ => .same rfl rfl rfl
  forced := fun s _ _ _ _ _ => .same rfl rfl rfl
  setExt := fun s _ => .same rfl rfl rfl
  winds := fun s _ => .same rfl rfl rfl
  windPush := by
    intro s ws w
    refine ⟨⟨fun c hc => ?_, fun i hi => ?_⟩, by simp, rfl, [], rfl, by simp⟩
    · have := w.catches c hc; simp only; omega
    · have := w.live i hi; simp only; omega
  runCatch := by
    intro rec _ hp hv tag tp tb te hp' hb he
    have key : ∀ (s : St σ) (r : Out V × St σ), Ev.runCatch rec tag tp tb te hp' hb he s = some r → CtlWF s →
        CtlRes s r := by
      intro s r h w
      unfold Ev.runCatch at h
      rw [getSt_bind] at h
      by_cases hlen : s.catches.length ≥ 100
      · rw [if_pos hlen] at h
        cases h
        exact fun w => ⟨w, Nat.le_refl _, ⟨[], rfl, by simp⟩, .refl s, ctl_thr s _ _⟩
      rw [if_neg hlen] at h
      let s1 : St σ := { s with next := s.next + 1, catches := ⟨s.next, tag⟩ :: s.catches, live := s.next :: s.live }
      have w1 : CtlWF s1 := by
        refine ⟨fun c hc => ?_, fun i hi => ?_⟩
        · rcases List.mem_cons.1 hc with rfl | hc
          · simp [s1]
          · have := w.catches c hc; simp only [s1]; omega
        · rcases List.mem_cons.1 hi with rfl | hi
          · simp [s1]
          · have := w.live i hi; simp only [s1]; omega
      have hk1 : Leaked s s1 := ⟨[⟨s.next, tag⟩], rfl, by simp⟩
      have hn : s1.next = s.next + 1 := rfl
      have h' := handle_eq_some (x := applyProc rec te tp tb te []) (s := s1) h
      obtain ⟨o, s2, hx, h⟩ := h'
      cases o with
      | ok v =>
        obtain ⟨w2, h1, h2, h3⟩ := (hp ..).ok _ _ _ hx w1
        have hd : (s2.live.dropWhile (· ≠ s.next)) = s.next :: s.live := by rw [h2]; simp [s1]
        cases h
        exact ctl_leave w w2 (by omega) (ctl_pop h3 rfl (Nat.le_refl _) (by omega)) (fun c hc => List.mem_of_mem_tail hc)
          (by show (s2.live.dropWhile (· ≠ s.next)).tail = _; rw [hd]; rfl) rfl
      | stop e =>
        have hb' := (hp ..).st _ _ _ hx
        obtain ⟨w2, g1, g2, g3, g4, g5⟩ := ctl_enter_stop hb' w w1 rfl rfl hk1
        have hpass : (∀ k a, e ≠ .err (some s.next) k a) → some r = some (.stop e, s2) → CtlRes s r := by
          intro hne hr
          cases hr
          intro _
          exact ⟨w2, g1, g2, g3, g5.through w rfl hk1 hne⟩
        cases e with
        | err tgt k a =>
          cases tgt with
          | none => exact hpass (by intro k a; simp) h.symm
          | some t =>
            simp only at h
            by_cases ht : t = s.next
            · rw [if_pos ht] at h
              unfold Ev.runHandler cutTo popCatch at h
              rw [modSt_bind, modSt_bind] at h
              let s3 : St σ := { s2 with live := s2.live.dropWhile (· ≠ s.next), catches := s2.catches.tail }
              have hl3 : s3.live = s.next :: s.live := g4
              obtain ⟨_, _, _, hk2, _⟩ := hb' w1
              have hk3 : Leaked s s3 := ctl_pop hk2 rfl (Nat.le_refl _) (by omega)
              have hn2 : s1.next ≤ s2.next := (hb' w1).2.1
              have hn3 : s3.next = s2.next := rfl
              have w3 : CtlWF s3 := by
                refine ⟨fun c hc => w2.catches c (List.mem_of_mem_tail hc), fun i hi => ?_⟩
                rw [hl3] at hi
                rcases List.mem_cons.1 hi with rfl | hi
                · omega
                · have := w.live i hi; omega
              obtain ⟨o, s4, hx4, h⟩ := handle_eq_some (s := s3) h
              cases o with
              | ok v =>
                cases h
                obtain ⟨w4, i1, i2, i3⟩ := (hv ..).ok _ _ _ hx4 w3
                refine ctl_leave w w4 (by omega) (hk3.trans (by omega) i3) (fun c hc => hc) ?_ rfl
                show (s4.live.dropWhile (· ≠ s.next)).tail = _
                rw [i2, hl3]; simp
              | stop e =>
                obtain ⟨w4, i1, ⟨l, i2, i2'⟩, i3, i4⟩ := (hv ..).st _ _ _ hx4 w3
                have hpass2 : ∀ e', (StopOk s3 e' → (∀ k a, e' ≠ .err (some s.next) k a) → StopOk s e') → StopOk s3 e' →
                    (∀ k a, e' ≠ .err (some s.next) k a) → some r = some (.stop e', s4) → CtlRes s r := by
                  intro e' he' hs3 hne hr
                  cases hr
                  intro _
                  refine ⟨w4, (by show s.next ≤ s4.next; omega), ⟨l ++ [s.next], by rw [i2, hl3]; simp, ?_⟩, hk3.trans (by omega) i3, he' hs3 hne⟩
                  intro i hi
                  rcases List.mem_append.1 hi with hi | hi
                  · have := i2' i hi; omega
                  · simp at hi; omega
                have hthr : ∀ e', StopOk s3 e' → (∀ k a, e' ≠ .err (some s.next) k a) → StopOk s e' := by
                  intro e' a b
                  exact a.through w hl3 hk3 b
                cases e with
                | err tgt k a =>
                  cases tgt with
                  | none => exact hpass2 _ (hthr _) i4 (by intro k a; simp) h.symm
                  | some t' =>
                    simp only at h
                    by_cases ht' : t' = s.next
                    · rw [if_pos ht'] at h
                      exact hpass2 .unmod (hthr _) trivial (by intro k a; simp) h.symm
                    · rw [if_neg ht'] at h
                      exact hpass2 _ (hthr _) i4 (by intro k a hh; cases hh; exact ht' rfl) h.symm
                | _ => exact hpass2 _ (hthr _) i4 (by intro k a; simp) h.symm
            · rw [if_neg ht] at h
              exact hpass (by intro k a hh; cases hh; exact ht rfl) h.symm
        | _ => exact hpass (by intro k a; simp) h.symm
    constructor
    · intro s a s' h w; exact key s _ h w w
    · intro s e s' h w; exact key s _ h w w
  withCont := by
    intro k hk
    have key : ∀ (s : St σ) (r : Out V × St σ), Ev.withCont k s = some r → CtlWF s → CtlRes s r := by
      intro s r h w
      unfold Ev.withCont at h
      rw [getSt_bind, modSt_bind] at h
      let s1 : St σ := { s with next := s.next + 1, live := s.next :: s.live, conts := ⟨s.next, s.winds, s.cur⟩ :: s.conts }
      have hn : s1.next = s.next + 1 := rfl
      have w1 : CtlWF s1 := by
        refine ⟨fun c hc => ?_, fun i hi => ?_⟩
        · have := w.catches c hc; omega
        · rcases List.mem_cons.1 hi with rfl | hi
          · omega
          · have := w.live i hi; omega
      have hk1 : Leaked s s1 := ⟨[], rfl, by simp⟩
      obtain ⟨o, s2, hx, h⟩ := handle_eq_some (s := s1) h
      cases o with
      | ok v =>
        obtain ⟨w2, h1, h2, h3⟩ := (hk _).ok _ _ _ hx w1
        have hd : (s2.live.dropWhile (· ≠ s.next)) = s.next :: s.live := by rw [h2]; simp [s1]
        cases h
        exact ctl_leave w w2 (by omega) (hk1.trans (by omega) h3) (fun c hc => hc)
          (by show (s2.live.dropWhile (· ≠ s.next)).tail = _; rw [hd]; rfl) rfl
      | stop e =>
        have hb' := (hk _).st _ _ _ hx
        obtain ⟨w2, g1, g2, g3, g4, g5⟩ := ctl_enter_stop hb' w w1 rfl rfl hk1
        have herr : ∀ k a, StopOk s1 (.err (some s.next) k a) → False := by
          intro k a hh
          obtain ⟨pre, c, post, h1, h2, -⟩ := hh
          have := w.catches c (by show c ∈ s1.catches; rw [h1]; simp)
          omega
        have hpass : some r = some (.stop e, s2) → CtlRes s r := by
          intro hr
          cases hr
          intro _
          refine ⟨w2, g1, g2, g3, g5.through w rfl hk1 ?_⟩
          intro k a hh
          subst hh
          exact herr k a g5
        cases e with
        | esc c v =>
          simp only at h
          by_cases hc : c = s.next
          · rw [if_pos hc] at h
            cases h
            exact ctl_leave w w2 (by omega) g3 (fun c hc => hc)
              (by show (s2.live.dropWhile (· ≠ s.next)).tail = _; rw [g4]; rfl) rfl
          · rw [if_neg hc] at h
            exact hpass h.symm
        | _ => exact hpass h.symm
    constructor
    · intro s a s' h w; exact key s _ h w w
    · intro s e s' h w; exact key s _ h w w

/-- Every evaluation that returns leaves the C stack as it was and only adds entries of finished activations to the catch stack. -/
theorem run_ctl_ok {P : Prims σ} {t : Task} {s s' : St σ} {v : V} (h : run P t s = some (.ok v, s')) : CtlOk s s' :=
  ((ctlRel σ).run_pres P t).ok _ _ _ h

/-- Every evaluation that is left by an error is left towards the innermost matching entry. -/
theorem run_ctl_stop {P : Prims σ} {t : Task} {s s' : St σ} {e : Stop} (h : run P t s = some (.stop e, s')) : CtlStop s e s' :=
  ((ctlRel σ).run_pres P t).st _ _ _ h

end Pscm.Ev
