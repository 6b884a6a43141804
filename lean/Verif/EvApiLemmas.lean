import Verif.EvApi
import Verif.EvCtl
/-! # The catch stack never holds more than 100 entries, and each embedding call takes back its own -/
namespace Pscm.Ev
variable {σ α β : Type}
open EM (stop getSt modSt)

/-- At most 100 entries stay at most 100 entries. -/
def Cap (s s' : St σ) : Prop := s.catches.length ≤ 100 → s'.catches.length ≤ 100

theorem Cap.same {s s' : St σ} (h : s'.catches = s.catches) : Cap s s' := by intro k; rw [h]; exact k
theorem Cap.trans {a b c : St σ} (h : Cap a b) (k : Cap b c) : Cap a c := fun x => k (h x)
theorem Cap.tail {s s' : St σ} (h : s'.catches = s.catches.tail) : Cap s s' := by
  intro k; rw [h, List.length_tail]; omega

/-- The relation for a result of either kind. -/
theorem cap_bind {x : EM σ α} {f : α → EM σ β} (hx : Pres Cap (fun s _ s' => Cap s s') x)
    (hf : ∀ o, Pres Cap (fun s _ s' => Cap s s') (f o)) : Pres Cap (fun s _ s' => Cap s s') (x >>= f) := by
  constructor <;> intro s b s' h <;> simp only [Bind.bind, EM.bind] at h
  · cases hxs : x s with
    | none => simp [hxs] at h
    | some q =>
      obtain ⟨o, s1⟩ := q
      rw [hxs] at h
      cases o with
      | ok a => exact (hx.ok _ _ _ hxs).trans ((hf a).ok _ _ _ h)
      | stop e => simp at h
  · cases hxs : x s with
    | none => simp [hxs] at h
    | some q =>
      obtain ⟨o, s1⟩ := q
      rw [hxs] at h
      cases o with
      | ok a => exact (hx.ok _ _ _ hxs).trans ((hf a).st _ _ _ h)
      | stop e => simp only [Option.some.injEq, Prod.mk.injEq] at h; obtain ⟨_, rfl⟩ := h; exact hx.st _ _ _ hxs

theorem cap_handle {x : EM σ α} {f : Out α → EM σ β} (hx : Pres Cap (fun s _ s' => Cap s s') x)
    (hf : ∀ o, Pres Cap (fun s _ s' => Cap s s') (f o)) : Pres Cap (fun s _ s' => Cap s s') (EM.handle x f) := by
  constructor <;> intro s b s' h <;> simp only [EM.handle] at h
  · cases hxs : x s with
    | none => simp [hxs] at h
    | some q =>
      obtain ⟨o, s1⟩ := q
      rw [hxs] at h
      refine Cap.trans (b := s1) ?_ ((hf o).ok _ _ _ h)
      cases o with
      | ok a => exact hx.ok _ _ _ hxs
      | stop e => exact hx.st _ _ _ hxs
  · cases hxs : x s with
    | none => simp [hxs] at h
    | some q =>
      obtain ⟨o, s1⟩ := q
      rw [hxs] at h
      refine Cap.trans (b := s1) ?_ ((hf o).st _ _ _ h)
      cases o with
      | ok a => exact hx.ok _ _ _ hxs
      | stop e => exact hx.st _ _ _ hxs

theorem cap_mod (f : St σ → St σ) (h : ∀ s, Cap s (f s)) : Pres Cap (fun s _ s' => Cap s s') (modSt f) :=
  ⟨by rintro s b s' ⟨⟩; exact h _, by rintro s b s' ⟨⟩⟩
theorem cap_pure (a : α) : Pres Cap (fun s _ s' => Cap s s') (pure a : EM σ α) :=
  ⟨by rintro s b s' ⟨⟩; exact .same rfl, by rintro s b s' ⟨⟩⟩
theorem cap_stop (e : Stop) : Pres Cap (fun s _ s' => Cap s s') (stop e : EM σ α) :=
  ⟨by rintro s b s' ⟨⟩, by rintro s b s' ⟨⟩; exact .same rfl⟩
theorem cap_leave (i : Nat) : Pres Cap (fun s _ s' => Cap s s') (leave i : EM σ Unit) := cap_mod _ fun _ => .same rfl
theorem cap_cut (i : Nat) : Pres Cap (fun s _ s' => Cap s s') (cutTo i : EM σ Unit) := cap_mod _ fun _ => .same rfl
theorem cap_pop : Pres Cap (fun s _ s' => Cap s s') (popCatch : EM σ Unit) := cap_mod _ fun _ => .tail rfl

/-- Entering a catch after the check. -/
theorem cap_enter {tag : V} {k : Nat → EM σ α} (hk : ∀ i, Pres Cap (fun s _ s' => Cap s s') (k i)) :
    Pres Cap (fun s _ s' => Cap s s') (do
      let s ← getSt
      if s.catches.length ≥ 100 then evalError "catch: too many nested catches"
      else do
        let id ← enterCatch tag
        k id) := by
  constructor <;> intro s b s' h <;> rw [getSt_bind] at h
  all_goals
    by_cases hlen : s.catches.length ≥ 100
    · rw [if_pos hlen] at h
      cases h
      try exact .same rfl
    · rw [if_neg hlen] at h
      let s1 : St σ := { s with next := s.next + 1, catches := ⟨s.next, tag⟩ :: s.catches, live := s.next :: s.live }
      have h1 : k s.next s1 = _ := h
      intro _
      have hl : s1.catches.length ≤ 100 := by show s.catches.length + 1 ≤ 100; omega
      first
        | exact (hk _).ok _ _ _ h1 hl
        | exact (hk _).st _ _ _ h1 hl

/-- No evaluation makes the catch stack overflow. -/
def capRel (σ : Type) : StRel σ where
  Rok := Cap
  Rst := fun s _ s' => Cap s s'
  refl := fun _ => .same rfl
  halt := fun _ _ _ => .same rfl
  thr := fun _ _ _ => .same rfl
  esc := fun _ _ _ _ => .same rfl
  trans := fun _ _ _ => .trans
  trans_st := fun _ _ _ _ => .trans
  push := fun _ _ _ _ _ => .same rfl
  upd := fun _ _ _ _ => .same rfl
  modsAt := fun _ _ _ _ => .same rfl
  modsUse := fun _ _ _ => .same rfl
  modsExport := fun _ _ _ _ => .same rfl
  modsNew := fun _ _ => .same rfl
  setCur := fun _ _ => .same rfl
  delay := fun _ _ _ => .same rfl
  forced := fun _ _ _ _ _ _ => .same rfl
  setExt := fun _ _ => .same rfl
  winds := fun _ _ => .same rfl
  windPush := fun _ _ => .same rfl
  runCatch := by
    intro rec _ hp hv tag tp tb te hp' hb he
    unfold Ev.runCatch
    refine cap_enter fun id => cap_handle (hp ..) fun o => ?_
    split
    · exact cap_bind cap_pop fun _ => cap_bind (cap_leave _) fun _ => cap_pure _
    · split
      · unfold Ev.runHandler
        refine cap_bind (cap_cut _) fun _ => cap_bind cap_pop fun _ => cap_handle (hv ..) fun o => ?_
        split
        · exact cap_bind (cap_leave _) fun _ => cap_pure _
        · split <;> exact cap_stop _
        · exact cap_stop _
      · exact cap_stop _
    · exact cap_stop _
  withCont := by
    intro k hk
    unfold Ev.withCont
    refine cap_bind ⟨by rintro s b s' ⟨⟩; exact .same rfl, by rintro s b s' ⟨⟩⟩ fun s => ?_
    refine cap_bind (cap_mod _ fun _ => .same rfl) fun _ => ?_
    refine cap_handle (hk _) fun o => ?_
    split
    · exact cap_bind (cap_leave _) fun _ => cap_pure _
    · split
      · exact cap_bind (cap_leave _) fun _ => cap_bind (cap_mod _ fun _ => .same rfl) fun _ => cap_pure _
      · exact cap_stop _
    · exact cap_stop _

/-- Both relations, for any computation that respects them. -/
structure ApiOk (x : EM σ α) : Prop where
  cap : Pres Cap (fun s _ s' => Cap s s') x
  ctl : Pres CtlOk CtlStop x

theorem ev_apiOk (P : Prims σ) (n : Nat) (t : Task) : ApiOk (ev P n t) := ⟨(capRel σ).ev_pres P n t, (ctlRel σ).ev_pres P n t⟩

theorem stopOk_own {s s1 : St σ} (w : CtlWF s) (hc : s1.catches = ⟨s.next, .bool true⟩ :: s.catches)
    {t : Option Nat} {k : Name} {a : V} (h : StopOk s1 (.err t k a)) : t = some s.next := by
  cases t with
  | none =>
    have := h ⟨s.next, .bool true⟩ (by rw [hc]; simp)
    simp [tagMatches] at this
  | some id =>
    obtain ⟨pre, c, post, h1, h2, h3, h4, h5⟩ := h
    rw [hc] at h1
    cases pre with
    | nil =>
      simp only [List.nil_append, List.cons.injEq] at h1
      rw [← h2, ← h1.1]
    | cons p pre =>
      simp only [List.cons_append, List.cons.injEq] at h1
      have := h5 p (by simp)
      rw [← h1.1] at this
      simp [tagMatches] at this

theorem apiCatch_cap {body : EM σ ApiRes} (hx : ApiOk body) : Pres Cap (fun s _ s' => Cap s s') (apiCatch body) := by
  unfold apiCatch
  refine cap_enter fun id => cap_handle hx.cap fun o => ?_
  split
  · exact cap_bind cap_pop fun _ => cap_bind (cap_leave _) fun _ => cap_pure _
  · split
    · exact cap_bind (cap_cut _) fun _ => cap_bind cap_pop fun _ => cap_bind (cap_leave _) fun _ => cap_pure _
    · exact cap_stop _
  · exact cap_stop _

/-- The boundary: what it does to the control state, when there is room on the catch stack and when there is not; a return takes back one
entry; no error gets past it when there is room. -/
theorem apiCatch_ctl {body : EM σ ApiRes} (hx : ApiOk body) {s : St σ} {r : Out ApiRes × St σ} (h : apiCatch body s = some r) (w : CtlWF s) :
    CtlRes s r ∧ (s.catches.length < 100 → (∀ t k a, r.1 ≠ .stop (.err t k a)) ∧ ((∃ v, r.1 = .ok v) → r.2.catches.length ≤ 99)) := by
  unfold apiCatch at h
  rw [getSt_bind] at h
  by_cases hlen : s.catches.length ≥ 100
  · rw [if_pos hlen] at h
    cases h
    refine ⟨fun w => ⟨w, Nat.le_refl _, ⟨[], rfl, by simp⟩, .refl s, ctl_thr s _ _⟩, fun hh => absurd hh (by omega)⟩
  rw [if_neg hlen] at h
  let s1 : St σ := { s with next := s.next + 1, catches := ⟨s.next, .bool true⟩ :: s.catches, live := s.next :: s.live }
  have w1 : CtlWF s1 := by
    refine ⟨fun c hc => ?_, fun i hi => ?_⟩
    · rcases List.mem_cons.1 hc with rfl | hc
      · simp [s1]
      · have := w.catches c hc; simp only [s1]; omega
    · rcases List.mem_cons.1 hi with rfl | hi
      · simp [s1]
      · have := w.live i hi; simp only [s1]; omega
  have hk1 : Leaked s s1 := ⟨[⟨s.next, .bool true⟩], rfl, by simp⟩
  have hn : s1.next = s.next + 1 := rfl
  have hl1 : s1.catches.length ≤ 100 := by show s.catches.length + 1 ≤ 100; omega
  obtain ⟨o, s2, hb, h⟩ := handle_eq_some (x := body) (s := s1) h
  cases o with
  | ok v =>
    obtain ⟨w2, h1, h2, h3⟩ := hx.ctl.ok _ _ _ hb w1
    have hc2 := hx.cap.ok _ _ _ hb hl1
    have hd : (s2.live.dropWhile (· ≠ s.next)) = s.next :: s.live := by rw [h2]; simp [s1]
    cases h
    refine ⟨ctl_leave w w2 (by omega) (ctl_pop h3 rfl (Nat.le_refl _) (by omega)) (fun c hc => List.mem_of_mem_tail hc)
      (by show (s2.live.dropWhile (· ≠ s.next)).tail = _; rw [hd]; rfl) rfl, fun _ => ⟨by simp, fun _ => ?_⟩⟩
    show s2.catches.tail.length ≤ 99
    rw [List.length_tail]
    omega
  | stop e =>
    have hb' := hx.ctl.st _ _ _ hb
    have hc2 := hx.cap.st _ _ _ hb hl1
    obtain ⟨w2, g1, g2, g3, g4, g5⟩ := ctl_enter_stop hb' w w1 rfl rfl hk1
    have hpass : (∀ t k a, e ≠ .err t k a) → some r = some (.stop e, s2) → CtlRes s r ∧
        (s.catches.length < 100 → (∀ t k a, r.1 ≠ .stop (.err t k a)) ∧ ((∃ v, r.1 = .ok v) → r.2.catches.length ≤ 99)) := by
      intro hne hr
      cases hr
      exact ⟨fun _ => ⟨w2, g1, g2, g3, g5.through w rfl hk1 fun k a => hne _ k a⟩,
        fun _ => ⟨fun t k a hh => hne t k a (by simpa using hh), fun ⟨v, hv⟩ => by cases hv⟩⟩
    cases e with
    | err tgt k a =>
      have ht := stopOk_own w rfl g5
      subst ht
      simp only [if_true] at h
      cases h
      obtain ⟨_, _, _, hk2, _⟩ := hb' w1
      refine ⟨ctl_leave w w2 (by omega) (ctl_pop hk2 rfl (Nat.le_refl _) (by omega)) (fun c hc => List.mem_of_mem_tail hc) ?_ rfl,
        fun _ => ⟨by simp, fun _ => ?_⟩⟩
      · show ((s2.live.dropWhile (· ≠ s.next)).dropWhile (· ≠ s.next)).tail = _
        rw [g4]
        simp
      · show s2.catches.tail.length ≤ 99
        rw [List.length_tail]
        omega
    | _ => exact hpass (by intro t k a; simp) h.symm

theorem apiCatch_ok {body : EM σ ApiRes} (hx : ApiOk body) : ApiOk (apiCatch body) := by
  refine ⟨apiCatch_cap hx, ?_, ?_⟩
  · intro s a s' h w
    exact (apiCatch_ctl hx h w).1 w
  · intro s e s' h w
    exact (apiCatch_ctl hx h w).1 w

theorem apiOk_bind {x : EM σ α} {f : α → EM σ β} (hx : ApiOk x) (hf : ∀ a, ApiOk (f a)) : ApiOk (x >>= f) := by
  refine ⟨cap_bind hx.cap fun a => (hf a).cap, ?_⟩
  exact pr_bind (ctlRel σ) hx.ctl fun a => (hf a).ctl

theorem apiOk_pure (a : α) : ApiOk (pure a : EM σ α) := ⟨cap_pure a, pr_pure (ctlRel σ) a⟩

theorem pscmEval_ok (P : Prims σ) (n : Nat) (ast : V) : ApiOk (pscmEval P n ast) :=
  apiCatch_ok (apiOk_bind (ev_apiOk P n _) fun v => apiOk_pure _)

theorem parseText_ok (t : ReadRes) : ApiOk (parseText t : EM σ ApiRes) := by
  cases t with
  | datum v => exact apiOk_pure _
  | nothing => exact apiOk_pure _
  | error m =>
    refine ⟨⟨by rintro s b s' ⟨⟩, by rintro s b s' ⟨⟩; exact .same rfl⟩, ⟨by rintro s b s' ⟨⟩, ?_⟩⟩
    rintro s b s' ⟨⟩
    exact (ctlRel σ).thr _ _ _
  | overflow =>
    exact ⟨cap_stop _, ⟨by rintro s b s' ⟨⟩, by rintro s b s' ⟨⟩; exact (ctlRel σ).halt _ _ (.inr (.inl rfl))⟩⟩

theorem pscmParse_ok (t : ReadRes) : ApiOk (pscmParse t : EM σ ApiRes) := apiCatch_ok (parseText_ok t)

theorem evalParsed_ok (P : Prims σ) (n : Nat) (r : ApiRes) : ApiOk (evalParsed P n r) := by
  cases r with
  | value v => exact pscmEval_ok P n v
  | _ => exact apiOk_pure _

theorem pscmEvalString_ok (P : Prims σ) (n : Nat) (t : ReadRes) : ApiOk (pscmEvalString P n t) :=
  apiCatch_ok (apiOk_bind (pscmParse_ok t) (evalParsed_ok P n))

end Pscm.Ev
