import Verif.EvCtl
import Verif.EvApply
import Verif.EvDemo
/-!
# C61, C62: catch and throw

`s.catches` is the stack of catches (newest first), `s.live` the catches and `call/cc` frames that have not returned (innermost first).
-/
namespace Pscm
open Ev
variable {σ : Type} {P : Prims σ}

/-! ## Specification -/

/-- A catch with this tag handles this key. -/
def TagFits (tag : V) (k : Name) : Prop := tag = .bool true ∨ tag = .sym k

/-- `id` is the most recently entered catch that handles `k`, and it has not returned. -/
def HandledBy (s : St σ) (id : Nat) (k : Name) : Prop :=
  ∃ newer tag older, s.catches = newer ++ ⟨id, tag⟩ :: older ∧ id ∈ s.live ∧ TagFits tag k ∧ ∀ c ∈ newer, ¬ TagFits c.tag k

/-- No catch handles `k`. -/
def Unhandled (s : St σ) (k : Name) : Prop := ∀ c ∈ s.catches, ¬ TagFits c.tag k

/-- No catch on the stack has returned. -/
def AllLive (s : St σ) : Prop := ∀ c ∈ s.catches, c.id ∈ s.live

/-- The state in which the body of a catch runs. -/
def catching (tag : V) (s : St σ) : St σ :=
  { s with next := s.next + 1, catches := ⟨s.next, tag⟩ :: s.catches, live := s.next :: s.live }

/-- The program text `(catch te the he)` with the builtin itself as operator. -/
abbrev catchExpr (te the he : V) : V := listOf [.func "catch" (-2), te, the, he]

/-- The program text `(throw x ...)` with the builtin itself as operator. -/
abbrev throwExpr (xs : List V) : V := .pair (.func "throw" (-2)) (listOf xs)

/-- What a catch does, for a body and a handler that are procedures. -/
inductive CatchRule (P : Prims σ) (tag thunk handler : V) (s : St σ) : Out V → St σ → Prop
  /-- the body returns: so does the catch, and it is removed from the stack -/
  | returns {v s1} : Applies P thunk [] (catching tag s) (.ok v) s1 →
      CatchRule P tag thunk handler s (.ok v) { s1 with catches := s1.catches.tail, live := s.live }
  /-- a throw reaches this catch: the handler is called with the key and the arguments -/
  | handled {k a as s1 v s2} : Applies P thunk [] (catching tag s) (.stop (.err (some s.next) k (listOf (a :: as)))) s1 →
      Applies P handler (.sym k :: a :: as) { s1 with catches := s1.catches.tail, live := s.next :: s.live } (.ok v) s2 →
      CatchRule P tag thunk handler s (.ok v) { s2 with live := s.live }
  /-- ... and may itself be left -/
  | handlerLeft {k a as s1 e s2} : Applies P thunk [] (catching tag s) (.stop (.err (some s.next) k (listOf (a :: as)))) s1 →
      Applies P handler (.sym k :: a :: as) { s1 with catches := s1.catches.tail, live := s.next :: s.live } (.stop e) s2 →
      (∀ k' a', e ≠ .err (some s.next) k' a') → CatchRule P tag thunk handler s (.stop e) s2
  /-- everything else passes through -/
  | passes {e s1} : Applies P thunk [] (catching tag s) (.stop e) s1 → (∀ k a, e ≠ .err (some s.next) k a) →
      CatchRule P tag thunk handler s (.stop e) s1

/-! ## Lemmas -/

theorem tagFits_iff {tag : V} {k : Name} : TagFits tag k ↔ tagMatches tag k = true := by
  unfold TagFits tagMatches
  split
  · simp
  · simp
  · rename_i h1 h2
    simp only [Bool.false_eq_true, iff_false, not_or]
    exact ⟨h1, h2 k⟩

theorem not_tagFits_iff {tag : V} {k : Name} : ¬ TagFits tag k ↔ tagMatches tag k = false := by
  rw [tagFits_iff]; simp

theorem handledBy_of {s : St σ} {id : Nat} {k : Name} (h : Innermost s id k) : HandledBy s id k := by
  obtain ⟨pre, c, post, h1, h2, h3, h4, h5⟩ := h
  exact ⟨pre, c.tag, post, by rw [h1, ← h2], h3, tagFits_iff.2 h4, fun c hc => not_tagFits_iff.2 (h5 c hc)⟩

theorem handledBy_unique {s : St σ} {i j : Nat} {k : Name} (h : HandledBy s i k) (h' : HandledBy s j k) : i = j := by
  obtain ⟨n1, t1, o1, e1, _, f1, g1⟩ := h
  obtain ⟨n2, t2, o2, e2, _, f2, g2⟩ := h'
  rw [e1] at e2
  rcases append_cons_cases e2 with hc | ⟨p, hp, hm⟩
  · exact absurd f2 (g1 _ hc)
  · cases p with
    | nil => simp at hm; exact hm.1.1
    | cons x xs =>
      simp only [List.cons_append, List.cons.injEq] at hm
      exact absurd f1 (g2 ⟨i, t1⟩ (by rw [hp, hm.1]; simp))

theorem scan_live {live : List Nat} {k : Name} {cs : List Catch} (h : ∀ c ∈ cs, c.id ∈ live) : scan live k cs ≠ .dangling := by
  induction cs with
  | nil => simp [scan]
  | cons c cs ih =>
    unfold scan
    rw [if_pos (h c (by simp))]
    split
    · simp
    · exact ih fun d hd => h d (by simp [hd])

theorem applies_nil_applyProc {thunk : V} {s s' : St σ} {o : Out V} {tp tb te} (ht : thunk = .proc tp tb te) (h : Applies P thunk [] s o s')
    (env : EnvId) : applyProc (run P) env tp tb te [] s = some (o, s') := by
  subst ht
  cases h with
  | @closure ps rest body penv f vs s o s' hnd hc hf hs =>
    have hps : ps = [] := by
      cases rest with
      | none => simp [CountOk] at hc; exact List.length_eq_zero_iff.1 hc.symm
      | some r => simpa [CountOk] using hc
    subst hps
    unfold applyProc
    simp only [bind_apply, newEnv_apply hf, splitParams_paramList]
    cases rest with
    | none =>
      simp only [List.map_nil, bindParams, pure_apply]
      exact seq_nodes hs
    | some r =>
      simp only [List.map_nil, bindParams, evalArgs, bind_apply, pure_apply, bindOwn_apply, updFrame_push]
      exact seq_nodes hs

theorem applies_ctl {f : V} {vs : List V} {s s' : St σ} {o : Out V} (h : Applies P f vs s o s') : CtlRes s (o, s') := by
  have hv := h.values
  have key : ∀ x : EM σ V, (ctlRel σ).Pr x → x s = some (o, s') → CtlRes s (o, s') := by
    intro x hx hh
    cases o with
    | ok v => exact hx.ok _ _ _ hh
    | stop e => exact hx.st _ _ _ hh
  cases h with
  | closure => exact key _ (applyProcV_pr (fun t => (ctlRel σ).run_pres P t) _ _ _ _) hv
  | builtin => exact key _ (callFunc_pr (fun t => (ctlRel σ).run_pres P t) P _ _ _) hv

theorem ctlWF_catching {s : St σ} {tag : V} (w : CtlWF s) : CtlWF (catching tag s) := by
  refine ⟨fun c hc => ?_, fun i hi => ?_⟩
  · rcases List.mem_cons.1 hc with rfl | hc
    · simp [catching]
    · have := w.catches c hc; simp only [catching]; omega
  · rcases List.mem_cons.1 hi with rfl | hi
    · simp [catching]
    · have := w.live i hi; simp only [catching]; omega

theorem run_func {env : EnvId} {n : Name} {xs : List V} {s s' : St σ} {vs : List V}
    (h : ArgsEval (Evals P) env xs s (.ok vs) s') (hn : n = "catch" ∨ n = "throw") :
    run P (.eval env (.pair (.func n (-2)) (listOf xs))) s = callPrim P (run P) n vs s' := by
  rw [run_eq]
  show evalFuncCall P (run P) env n (-2) (listOf xs) s = _
  unfold evalFuncCall
  rcases hn with rfl | rfl <;>
  · rw [if_neg (by decide), if_neg (by decide), if_neg (by decide), bind_apply, nodes_listOf, evalArgs_iff.2 h]
    rfl

/-! ## C61 -/

/-- C61: `(throw key arg ...)` is directed at the most recently entered catch that handles the key, with the key and the arguments.  Partial:
no entry of the catch stack belongs to a catch that has returned (`c62_stale_counterexample` for what happens otherwise). -/
theorem c61_throw_partial {env : EnvId} {xs : List V} {k : Name} {vs : List V} {s s1 : St σ} {id : Nat} (hl : AllLive s1)
    (h : ArgsEval (Evals P) env xs s (.ok (.sym k :: vs)) s1) (hh : HandledBy s1 id k) :
    Evals P env (throwExpr xs) s (.stop (.err (some id) k (listOf vs))) s1 := by
  rw [evals_iff, run_func h (.inr rfl)]
  show some (Out.stop (throwStop s1 k (listOf vs)), s1) = _
  have hd := scan_live (k := k) hl
  have hs := scan_spec s1.live k s1.catches
  unfold throwStop
  cases hsc : scan s1.live k s1.catches with
  | dangling => exact absurd hsc hd
  | uncaught =>
    rw [hsc] at hs
    obtain ⟨n, t, o, e, _, f, _⟩ := hh
    have := hs ⟨id, t⟩ (by rw [e]; simp)
    exact absurd f (not_tagFits_iff.2 this)
  | «catch» i =>
    rw [hsc] at hs
    have : i = id := handledBy_unique (handledBy_of hs) hh
    subst this; rfl

/-- C61: with no catch that handles the key the throw is reported as uncaught. -/
theorem c61_uncaught_partial {env : EnvId} {xs : List V} {k : Name} {vs : List V} {s s1 : St σ} (hl : AllLive s1)
    (h : ArgsEval (Evals P) env xs s (.ok (.sym k :: vs)) s1) (hh : Unhandled s1 k) :
    Evals P env (throwExpr xs) s (.stop (.err Option.none k (listOf vs))) s1 := by
  rw [evals_iff, run_func h (.inr rfl)]
  show some (Out.stop (throwStop s1 k (listOf vs)), s1) = _
  have hd := scan_live (k := k) hl
  have hs := scan_spec s1.live k s1.catches
  unfold throwStop
  cases hsc : scan s1.live k s1.catches with
  | dangling => exact absurd hsc hd
  | uncaught => rfl
  | «catch» i =>
    rw [hsc] at hs
    obtain ⟨p, c, q, e, _, _, m, _⟩ := hs
    exact absurd (tagFits_iff.2 m) (hh c (by rw [e]; simp))

/-- C61: whatever program is evaluated, an error that leaves it -- raised however deep, by `throw` or by a builtin -- is directed at the most
recently entered catch that was active before and handles the key. -/
theorem c61_target {env : EnvId} {x : V} {s s' : St σ} {id : Nat} {k : Name} {a : V} (w : CtlWF s)
    (h : Evals P env x s (.stop (.err (some id) k a)) s') : HandledBy s id k :=
  handledBy_of ((run_ctl_stop (evals_iff.1 h) w).2.2.2.2)

/-- C61: and it is reported as uncaught only if there is none. -/
theorem c61_target_uncaught {env : EnvId} {x : V} {s s' : St σ} {k : Name} {a : V} (w : CtlWF s)
    (h : Evals P env x s (.stop (.err Option.none k a)) s') : Unhandled s k :=
  fun c hc => not_tagFits_iff.2 ((run_ctl_stop (evals_iff.1 h) w).2.2.2.2 c hc)

/-- C61: an error that leaves the body of a catch is directed at that catch exactly if its tag handles the key; otherwise at the most recently
entered of the other catches that does, or it is uncaught. -/
theorem c61_body {tag thunk : V} {s s1 : St σ} {t : Option Nat} {k : Name} {a : V} (w : CtlWF s)
    (h : Applies P thunk [] (catching tag s) (.stop (.err t k a)) s1) :
    (TagFits tag k → t = some s.next) ∧
    (¬ TagFits tag k → (∀ id, t = some id → HandledBy s id k ∧ id ≠ s.next) ∧ (t = Option.none → Unhandled s k)) := by
  have hs := (applies_ctl h (ctlWF_catching w)).2.2.2.2
  cases t with
  | none =>
    have hs' : ∀ c ∈ (catching tag s).catches, tagMatches c.tag k = false := hs
    refine ⟨fun hf => ?_, fun _ => ⟨by simp, fun _ c hc => ?_⟩⟩
    · have := hs' ⟨s.next, tag⟩ (by simp [catching])
      exact absurd hf (not_tagFits_iff.2 this)
    · exact not_tagFits_iff.2 (hs' c (by simp [catching, hc]))
  | some id =>
    obtain ⟨pre, c, post, h1, h2, h3, h4, h5⟩ : Innermost (catching tag s) id k := hs
    cases pre with
    | nil =>
      simp only [catching, List.nil_append, List.cons.injEq] at h1
      obtain ⟨h1, _⟩ := h1
      subst h1
      simp only at h2 h4
      refine ⟨fun _ => by rw [h2], fun hn => absurd (tagFits_iff.2 h4) hn⟩
    | cons p pre =>
      simp only [catching, List.cons_append, List.cons.injEq] at h1
      obtain ⟨hp, h1⟩ := h1
      have hp' := h5 p (by simp)
      rw [← hp] at hp'
      refine ⟨fun hf => absurd hf (not_tagFits_iff.2 hp'), fun _ => ⟨?_, by simp⟩⟩
      intro id' hid
      cases hid
      have hlt : id < s.next := h2 ▸ w.catches c (by rw [h1]; simp)
      refine ⟨⟨pre, c.tag, post, by rw [h1, ← h2], ?_, tagFits_iff.2 h4, fun d hd => not_tagFits_iff.2 (h5 d (by simp [hd]))⟩, by omega⟩
      rcases List.mem_cons.1 h3 with h3 | h3
      · omega
      · exact h3

/-- C61: `(catch tag body handler)` follows the rules above, as long as there are fewer than 100 entries on the stack. -/
theorem c61_catch_partial {env : EnvId} {te the he tag thunk handler : V} {s0 s s' : St σ} {o : Out V} (w : CtlWF s)
    (h : ArgsEval (Evals P) env [te, the, he] s0 (.ok [tag, thunk, handler]) s) (ht : tag = .bool true ∨ ∃ k, tag = .sym k)
    (hp : ∃ ps b e, thunk = .proc ps b e) (hp' : ∃ ps b e, handler = .proc ps b e) (hlen : s.catches.length < 100)
    (hr : CatchRule P tag thunk handler s o s') : Evals P env (catchExpr te the he) s0 o s' := by
  obtain ⟨tp, tb, ten, hthunk⟩ := hp
  obtain ⟨hp2, hb2, hen, hhandler⟩ := hp'
  rw [evals_iff]
  refine (run_func h (.inl rfl)).trans ?_
  have hcat : callPrim P (run P) "catch" [tag, thunk, handler] s = runCatch (run P) tag tp tb ten hp2 hb2 hen s := by
    show catchPrim (run P) [tag, thunk, handler] s = _
    unfold catchPrim
    rcases ht with rfl | ⟨k, rfl⟩ <;> subst hthunk <;> subst hhandler <;> rfl
  rw [hcat]
  unfold runCatch
  rw [Ev.getSt_bind, if_neg (by omega)]
  have w1 := ctlWF_catching (tag := tag) w
  have ent : ∀ (o1 : Out V) (s1 : St σ), Applies P thunk [] (catching tag s) o1 s1 →
      applyProc (run P) ten tp tb ten [] (catching tag s) = some (o1, s1) := fun o1 s1 h => applies_nil_applyProc hthunk h ten
  have hand : ∀ (vs : List V) (o1 : Out V) (s1 s2 : St σ), Applies P handler vs s1 o1 s2 →
      applyProcV (run P) hp2 hb2 hen vs s1 = some (o1, s2) := by
    intro vs o1 s1 s2 h
    subst hhandler
    exact h.values
  have cut : ∀ (e : Stop) (s1 : St σ), Applies P thunk [] (catching tag s) (.stop e) s1 →
      s1.live.dropWhile (· ≠ s.next) = s.next :: s.live := by
    intro e s1 h
    exact (ctl_enter_stop (applies_ctl h) w w1 rfl rfl ⟨[⟨s.next, tag⟩], rfl, by simp⟩).2.2.2.2.1
  show EM.handle (applyProc (run P) ten tp tb ten []) _ (catching tag s) = _
  unfold EM.handle
  cases hr with
  | @returns v s1 h1 =>
    rw [ent _ _ h1]
    have hl : s1.live = s.next :: s.live := (applies_ctl h1 w1).2.2.1
    show some (Out.ok v, { s1 with catches := s1.catches.tail, live := (s1.live.dropWhile (· ≠ s.next)).tail }) = _
    rw [hl]; simp
  | @handled k a as s1 v s2 h1 h2 =>
    rw [ent _ _ h1]
    have hl2 : s2.live = s.next :: s.live := by
      have hk := applies_ctl h1 w1
      have w3 : CtlWF { s1 with catches := s1.catches.tail, live := s.next :: s.live } := by
        refine ⟨fun c hc => hk.1.catches c (List.mem_of_mem_tail hc), fun i hi => ?_⟩
        have hn := hk.2.1
        simp only [catching] at hn
        rcases List.mem_cons.1 hi with rfl | hi
        · exact hn
        · have := w.live i hi; simp only; omega
      exact (applies_ctl h2 w3).2.2.1
    show (if s.next = s.next then runHandler (run P) s.next hp2 hb2 hen k (listOf (a :: as)) else _) s1 = _
    rw [if_pos rfl]
    show EM.handle (applyProcV (run P) hp2 hb2 hen (handlerArgs k (listOf (a :: as)))) _
      { s1 with live := s1.live.dropWhile (· ≠ s.next), catches := s1.catches.tail } = _
    rw [cut _ _ h1]
    unfold EM.handle
    have ha : handlerArgs k (listOf (a :: as)) = .sym k :: a :: as := by
      simp only [handlerArgs, listOf, nodes, nodes_listOf]
    rw [ha, hand _ _ _ _ h2]
    show some (Out.ok v, { s2 with live := (s2.live.dropWhile (· ≠ s.next)).tail }) = _
    rw [hl2]; simp
  | @handlerLeft k a as s1 e s2 h1 h2 hne =>
    rw [ent _ _ h1]
    show (if s.next = s.next then runHandler (run P) s.next hp2 hb2 hen k (listOf (a :: as)) else _) s1 = _
    rw [if_pos rfl]
    show EM.handle (applyProcV (run P) hp2 hb2 hen (handlerArgs k (listOf (a :: as)))) _
      { s1 with live := s1.live.dropWhile (· ≠ s.next), catches := s1.catches.tail } = _
    rw [cut _ _ h1]
    unfold EM.handle
    have ha : handlerArgs k (listOf (a :: as)) = .sym k :: a :: as := by
      simp only [handlerArgs, listOf, nodes, nodes_listOf]
    rw [ha, hand _ _ _ _ h2]
    cases e with
    | err t k' a' =>
      cases t with
      | none => rfl
      | some t =>
        show (if t = s.next then EM.stop .unmod else EM.stop (.err (some t) k' a') : EM σ V) s' = _
        rw [if_neg (by intro hh; subst hh; exact hne _ _ rfl)]
        rfl
    | _ => rfl
  | @passes e s1 h1 hne =>
    rw [ent _ _ h1]
    cases e with
    | err t k' a' =>
      cases t with
      | none => rfl
      | some t =>
        show (if t = s.next then runHandler (run P) s.next hp2 hb2 hen k' a' else EM.stop (.err (some t) k' a') : EM σ V) s' = _
        rw [if_neg (by intro hh; subst hh; exact hne _ _ rfl)]
        rfl
    | _ => rfl

/-! Non-vacuity: `(catch 'a (lambda () (throw 'a 7)) (lambda (k v) v))`. -/

/-- The state at the throw. -/
def Demo.inBody : St Unit :=
  { catching (.sym "a") Demo.s0 with frames := Demo.s0.frames ++ [⟨[], some 0, Option.none⟩] }

/-- The state at the end of the handler. -/
def Demo.inHandler : St Unit :=
  { Demo.s0 with
    frames := Demo.s0.frames ++ [⟨[], some 0, Option.none⟩, ⟨[("v", .num 7), ("k", .sym "a")], some 0, Option.none⟩]
    live := [0]
    next := 1 }

theorem Demo.wfc : CtlWF Demo.s0 := ⟨by simp [Demo.s0], by simp [Demo.s0]⟩

example : ∃ s', Evals Demo.prims 0
    (catchExpr (quoted (.sym "a")) (.proc .nil (listOf [throwExpr [quoted (.sym "a"), .num 7]]) 0)
      (.proc (paramList ["k", "v"] Option.none) (listOf [.sym "v"]) 0)) Demo.s0 (.ok (.num 7)) s' := by
  exact ⟨_, c61_catch_partial (tag := .sym "a") Demo.wfc (.cons ⟨2, rfl⟩ (.cons ⟨1, rfl⟩ (.cons ⟨1, rfl⟩ .nil))) (.inr ⟨_, rfl⟩) ⟨_, _, _, rfl⟩
    ⟨_, _, _, rfl⟩ (by decide)
    (.handled (k := "a") (a := .num 7) (as := []) (s1 := Demo.inBody) (s2 := Demo.inHandler)
      (.closure (ps := []) (rest := Option.none) (by decide) rfl rfl (.last ⟨5, rfl⟩))
      (.closure (ps := ["k", "v"]) (rest := Option.none) (by decide) rfl rfl (.last ⟨5, rfl⟩)))⟩

/-- `c61_throw_partial`: two catches are active, the outer one handles the key. -/
example : ∃ s', Evals Demo.prims 0 (throwExpr [quoted (.sym "a"), .num 1])
    { Demo.s0 with catches := [⟨1, .sym "b"⟩, ⟨0, .bool true⟩], live := [1, 0], next := 2 } (.stop (.err (some 0) "a" (listOf [.num 1]))) s' :=
  ⟨_, c61_throw_partial (by intro c hc; simp at hc; rcases hc with rfl | rfl <;> decide) (.cons ⟨2, rfl⟩ (.cons ⟨1, rfl⟩ .nil))
    ⟨[⟨1, .sym "b"⟩], .bool true, [], rfl, by decide, .inl rfl, by simp [TagFits]⟩⟩

/-- Without arguments the handler is called with one too many: `(catch 'a (lambda () (throw 'a)) (lambda r r))` is `(a ())`, not `(a)`. -/
theorem c61_no_arguments_counterexample : ∃ s', Evals Demo.prims 0
    (listOf [.sym "catch", quoted (.sym "a"), listOf [.sym "lambda", .nil, listOf [.sym "throw", quoted (.sym "a")]],
      listOf [.sym "lambda", .sym "r", .sym "r"]]) Demo.s0 (.ok (listOf [.sym "a", .nil])) s' :=
  Demo.evals_of 12 (by decide +kernel)

/-! ## C62 -/

/-- C62, what holds: every evaluation that returns leaves all catches that were on the stack in place and adds at most entries of catches
that have returned; the C stack is as before. -/
theorem c62_stack_partial {env : EnvId} {x v : V} {s s' : St σ} (w : CtlWF s) (h : Evals P env x s (.ok v) s') :
    s'.live = s.live ∧ ∃ stale, s'.catches = stale ++ s.catches ∧ ∀ c ∈ stale, c.id ∉ s'.live := by
  obtain ⟨_, _, hl, l, h1, h2⟩ := run_ctl_ok (evals_iff.1 h) w
  refine ⟨hl, l, h1, fun c hc hh => ?_⟩
  rw [hl] at hh
  have := w.live _ hh
  have := h2 c hc
  omega

/-- C62: a catch whose body returns without leaving entries behind restores the stack. -/
theorem c62_returns_partial {env : EnvId} {te the he tag thunk handler : V} {s0 s s1 : St σ} {v : V} (w : CtlWF s)
    (h : ArgsEval (Evals P) env [te, the, he] s0 (.ok [tag, thunk, handler]) s) (ht : tag = .bool true ∨ ∃ k, tag = .sym k)
    (hp : ∃ ps b e, thunk = .proc ps b e) (hp' : ∃ ps b e, handler = .proc ps b e) (hlen : s.catches.length < 100)
    (hb : Applies P thunk [] (catching tag s) (.ok v) s1) (hs : s1.catches = (catching tag s).catches) :
    Evals P env (catchExpr te the he) s0 (.ok v) { s1 with catches := s.catches, live := s.live } := by
  have := c61_catch_partial w h ht hp hp' hlen (.returns hb)
  rw [hs] at this
  exact this

/-- C62: a catch that handles a throw from its own body, not from inside another catch, restores the stack if the handler does. -/
theorem c62_handled_partial {env : EnvId} {te the he tag thunk handler : V} {s0 s s1 s2 : St σ} {k : Name} {a v : V} {as : List V} (w : CtlWF s)
    (h : ArgsEval (Evals P) env [te, the, he] s0 (.ok [tag, thunk, handler]) s) (ht : tag = .bool true ∨ ∃ k, tag = .sym k)
    (hp : ∃ ps b e, thunk = .proc ps b e) (hp' : ∃ ps b e, handler = .proc ps b e) (hlen : s.catches.length < 100)
    (hb : Applies P thunk [] (catching tag s) (.stop (.err (some s.next) k (listOf (a :: as)))) s1)
    (hs : s1.catches = (catching tag s).catches)
    (hh : Applies P handler (.sym k :: a :: as) { s1 with catches := s.catches, live := s.next :: s.live } (.ok v) s2)
    (hs2 : s2.catches = s.catches) :
    ∃ s', Evals P env (catchExpr te the he) s0 (.ok v) s' ∧ s'.catches = s.catches ∧ s'.live = s.live := by
  have e : s1.catches.tail = s.catches := by rw [hs]; rfl
  exact ⟨_, c61_catch_partial w h ht hp hp' hlen (.handled hb (by rw [e]; exact hh)), hs2, rfl⟩

/-- A throw to an outer catch from inside an inner one:
`(catch #t (lambda () (catch 'inner (lambda () (throw 'outer 1)) (lambda (k v) 0))) (lambda (k v) 5))`. -/
def crossing : V :=
  listOf [.sym "catch", .bool true,
    listOf [.sym "lambda", .nil,
      listOf [.sym "catch", quoted (.sym "inner"), listOf [.sym "lambda", .nil, listOf [.sym "throw", quoted (.sym "outer"), .num 1]],
        listOf [.sym "lambda", listOf [.sym "k", .sym "v"], .num 0]]],
    listOf [.sym "lambda", listOf [.sym "k", .sym "v"], .num 5]]

/-- C62 fails: after a throw to an outer catch from inside an inner one has been handled, the outer catch is still on the stack although it has
returned ... -/
theorem c62_stale_counterexample : ∃ s', Evals Demo.prims 0 crossing Demo.s0 (.ok (.num 5)) s' ∧ s'.catches = [⟨0, .bool true⟩] ∧ s'.live = [] :=
  ⟨_, ⟨12, rfl⟩, rfl, rfl⟩

/-- ... and the next throw that looks at it follows a pointer into a dead stack frame. -/
theorem c62_stale_ub_counterexample : ∃ s', Evals Demo.prims 0
    (listOf [.sym "begin", crossing, listOf [.sym "throw", quoted (.sym "other"), .num 1]]) Demo.s0 (.stop .ub) s' :=
  Demo.evals_of 14 (by decide +kernel)

/-- States of the demonstration interpreter between two top-level evaluations. -/
structure Demo.Idle (s : St Unit) : Prop where
  frames : ∃ fs, s.frames = Demo.s0.frames ++ fs
  noMacro : ∀ x, NoMacro s x
  mods : s.mods = Demo.s0.mods
  cur : s.cur = 0
  root : s.root = 0
  live : s.live = []
  wf : CtlWF s

/-- Environments in which `crossing` and its parts are evaluated: the global one and empty frames below it. -/
inductive Demo.Base (s : St Unit) : Nat → Prop
  | zero : Demo.Base s 0
  | up {env p} : s.frames[env]? = some ⟨[], some p, Option.none⟩ → p < env → Demo.Base s p → Demo.Base s env

theorem Demo.Base.find {s : St Unit} {env : Nat} {x : Name} (h : Demo.Base s env) (n : Nat) (hn : env < n)
    (hg : s.frames[0]? = some ⟨Demo.builtins, Option.none, Option.none⟩) (hh : hasEntry x Demo.builtins = true) :
    findFrame s.frames x n env = some 0 := by
  induction h generalizing n with
  | zero =>
    obtain ⟨m, rfl⟩ := Nat.exists_eq_succ_of_ne_zero (by omega : n ≠ 0)
    simp only [findFrame, hg, hh, if_true]
  | @up env p hf hp _ ih =>
    obtain ⟨m, rfl⟩ := Nat.exists_eq_succ_of_ne_zero (by omega : n ≠ 0)
    have : hasEntry x ([] : List (Name × V)) = false := rfl
    simp only [findFrame, hf, this, Bool.false_eq_true, if_false]
    exact ih m (by omega)

theorem Demo.global {s : St Unit} (h : ∃ fs, s.frames = Demo.s0.frames ++ fs) : s.frames[0]? = some ⟨Demo.builtins, Option.none, Option.none⟩ := by
  obtain ⟨fs, h⟩ := h
  rw [h]; rfl

/-- A builtin named in operator position. -/
theorem Demo.operator {s s' : St Unit} {env : Nat} {x : Name} {v rest : V} {o : Out V} (h : ∃ fs, s.frames = Demo.s0.frames ++ fs)
    (hcr : s.cur = s.root) (hb : Demo.Base s env) (hx : findEntry x Demo.builtins = some v) (hv : isMacro v = false) (hf : formOf x = Option.none) :
    Evals Demo.prims env (.pair v rest) s o s' → Evals Demo.prims env (.pair (.sym x) rest) s o s' := by
  intro he
  rw [evals_step]
  show evalPair Demo.prims (run Demo.prims) env (.sym x) rest s = _
  have hg := Demo.global h
  have h0 : lookOwn s.frames 0 x = some v := by simp only [lookOwn, hg, hx]
  have hval : ∀ w, opValue s env x = some w → w = v := by
    intro w hw
    cases hb with
    | zero => simp only [opValue, h0, Option.some.injEq] at hw; exact hw.symm
    | up hb => simp [opValue, hcr, lookOwn, hb, findEntry, hg, hx, hv] at hw
  have hs : envSearch s env x = some v := by
    unfold envSearch
    have : lookChain s.frames env x = some v := by
      have hh : hasEntry x Demo.builtins = true := by simp [hasEntry, hx]
      simp only [lookChain, hb.find (env + 1) (by omega) hg hh, h0]
    rw [this]
  unfold evalPair
  simp only [Ev.getSt_bind]
  cases hop : opValue s env x with
  | none =>
    simp only [hf, bind_apply, lookupSymbol, getSt_apply, hs, pure_apply]
    exact evals_iff.1 he
  | some w =>
    obtain rfl := hval w hop
    have he' := evals_iff.1 he
    cases w
    case «macro» => cases hv
    all_goals
      simp only [hf]
      exact he'

theorem Demo.lambda {s : St Unit} {env : Nat} {ps : List Name} {b : V} (h : NoMacro s "lambda") :
    Evals Demo.prims env (listOf [.sym "lambda", paramList ps Option.none, b]) s
      (.ok (.proc (paramList ps Option.none) (listOf [b]) env)) s := by
  show Evals Demo.prims env (.pair (.sym "lambda") (listOf [paramList ps Option.none, b])) s _ s
  rw [evals_form (f := .lambda) h (by decide)]
  simp only [evalForm, evalLambda, listOf, uncons, mkBody]
  cases ps <;> rfl

theorem noMacro_push {s : St σ} {x : Name} {es : List (Name × V)} {p m} (h : NoMacro s x) (he : ∀ q ∈ es, isMacro q.2 = false) :
    NoMacro { s with frames := s.frames ++ [⟨es, p, m⟩] } x := by
  refine ⟨?_, h.2⟩
  intro f hf v hv
  rcases List.mem_append.1 hf with hf | hf
  · exact h.1 f hf v hv
  · simp only [List.mem_singleton] at hf
    subst hf
    exact he _ hv

/-- Every evaluation of `crossing` leaves one more stale entry. -/
theorem crossing_leaks {s : St Unit} (h : Demo.Idle s) (hlen : s.catches.length ≤ 98) :
    ∃ s', Evals Demo.prims 0 crossing s (.ok (.num 5)) s' ∧ Demo.Idle s' ∧ s'.catches = ⟨s.next, .bool true⟩ :: s.catches := by
  have hg := Demo.global h.frames
  have hq : ∀ (s : St Unit) (env : Nat) (v : V), NoMacro s "quote" → Evals Demo.prims env (quoted v) s (.ok v) s :=
    fun s env v h => evals_quoted (Ev.NoMacro.quoteOk h env)
  let fr : Frame := ⟨[], some 0, Option.none⟩
  let n := s.frames.length
  have npos : 0 < n := (List.getElem?_eq_some_iff.1 hg).1
  -- the body of the outer catch, entered
  let s1 : St Unit := { catching (.bool true) s with frames := s.frames ++ [fr] }
  -- the body of the inner catch, entered
  let s2 : St Unit := { catching (.sym "inner") s1 with frames := s1.frames ++ [⟨[], some n, Option.none⟩] }
  have nm1 : ∀ x, NoMacro s1 x := fun x => noMacro_push (h.noMacro x) (by simp)
  have nm2 : ∀ x, NoMacro s2 x := fun x => noMacro_push (nm1 x) (by simp)
  have f1 : ∃ fs, s1.frames = Demo.s0.frames ++ fs := by
    obtain ⟨fs, hfs⟩ := h.frames
    exact ⟨fs ++ [fr], by simp [s1, hfs]⟩
  have f2 : ∃ fs, s2.frames = Demo.s0.frames ++ fs := by
    obtain ⟨fs, hfs⟩ := f1
    exact ⟨fs ++ [⟨[], some n, Option.none⟩], by simp [s2, hfs]⟩
  have w1 : CtlWF s1 := ⟨(ctlWF_catching (tag := .bool true) h.wf).catches, (ctlWF_catching (tag := .bool true) h.wf).live⟩
  have b1 : Demo.Base s1 n := .up (p := 0) (by simp [s1, n, fr]) npos .zero
  have b2 : Demo.Base s2 (n + 1) := .up (p := n) (by simp [s2, s1, n]) (by omega) (.up (p := 0) (by simp [s2, s1, n, fr]) npos .zero)
  have hcr : s.cur = s.root := by rw [h.cur, h.root]
  have wt := ctlWF_catching (tag := .sym "inner") w1
  -- the throw
  have ht : Evals Demo.prims (n + 1) (listOf [.sym "throw", quoted (.sym "outer"), .num 1]) s2
      (.stop (.err (some s.next) "outer" (listOf [.num 1]))) s2 := by
    refine Demo.operator f2 hcr b2 (v := .func "throw" (-2)) (by decide) rfl (by decide) ?_
    rw [evals_iff]
    refine (run_func (vs := [.sym "outer", .num 1]) (s' := s2)
      (.cons (hq _ _ _ (nm2 _)) (.cons ⟨1, rfl⟩ .nil)) (.inr rfl)).trans ?_
    show some (Out.stop (throwStop s2 "outer" (listOf [.num 1])), s2) = _
    have : scan s2.live "outer" s2.catches = .catch s.next := by
      show scan ((s.next + 1) :: s.next :: s.live) "outer" (⟨s.next + 1, .sym "inner"⟩ :: ⟨s.next, .bool true⟩ :: s.catches) = _
      simp [scan, tagMatches]
    unfold throwStop
    rw [this]
  let inner : V := .proc .nil (listOf [listOf [.sym "throw", quoted (.sym "outer"), .num 1]]) n
  let hin : V := .proc (paramList ["k", "v"] Option.none) (listOf [.num 0]) n
  let outer : V := .proc .nil (listOf [listOf [.sym "catch", quoted (.sym "inner"),
    listOf [.sym "lambda", .nil, listOf [.sym "throw", quoted (.sym "outer"), .num 1]],
    listOf [.sym "lambda", listOf [.sym "k", .sym "v"], .num 0]]]) 0
  let hout : V := .proc (paramList ["k", "v"] Option.none) (listOf [.num 5]) 0
  have hn1 : s1.frames[n]? = some fr := by simp [s1, n, fr]
  -- the inner catch passes it on
  have hi : Evals Demo.prims n (catchExpr (quoted (.sym "inner"))
      (listOf [.sym "lambda", .nil, listOf [.sym "throw", quoted (.sym "outer"), .num 1]])
      (listOf [.sym "lambda", listOf [.sym "k", .sym "v"], .num 0])) s1 (.stop (.err (some s.next) "outer" (listOf [.num 1]))) s2 := by
    refine c61_catch_partial (tag := .sym "inner") (thunk := inner) (handler := hin) (s := s1) w1
      (.cons (hq _ _ _ (nm1 _)) (.cons (Demo.lambda (ps := []) (nm1 _)) (.cons (Demo.lambda (ps := ["k", "v"]) (nm1 _)) .nil)))
      (.inr ⟨_, rfl⟩) ⟨_, _, _, rfl⟩ ⟨_, _, _, rfl⟩ ?_ (.passes ?_ ?_)
    · show s.catches.length + 1 < 100; omega
    · refine .closure (ps := []) (rest := Option.none) (body := [listOf [.sym "throw", quoted (.sym "outer"), .num 1]]) (by decide) rfl hn1 ?_
      refine .last ?_
      have hl : (catching (.sym "inner") s1).frames.length = n + 1 := by simp [catching, s1, n]
      rw [hl]; exact ht
    · intro k a hh
      simp only [Stop.err.injEq, Option.some.injEq] at hh
      have : s.next = s.next + 1 := hh.1
      omega
  let s3 : St Unit := { s2 with catches := s2.catches.tail, live := s.next :: s.live }
  let s4 : St Unit := { s3 with frames := s3.frames ++ [⟨[("v", .num 1), ("k", .sym "outer")], some 0, Option.none⟩] }
  refine ⟨{ s4 with live := s.live }, ?_, ?_, rfl⟩
  · refine Demo.operator h.frames hcr .zero (v := .func "catch" (-2)) (by decide) rfl (by decide) ?_
    refine c61_catch_partial (tag := .bool true) (thunk := outer) (handler := hout) (s := s) h.wf
      (.cons ⟨1, rfl⟩ (.cons (Demo.lambda (ps := []) (h.noMacro _)) (.cons (Demo.lambda (ps := ["k", "v"]) (h.noMacro _)) .nil)))
      (.inl rfl) ⟨_, _, _, rfl⟩ ⟨_, _, _, rfl⟩ (by omega) (.handled (k := "outer") (a := .num 1) (as := []) (s1 := s2) (s2 := s4) ?_ ?_)
    · refine .closure (ps := []) (rest := Option.none) (body := [_]) (by decide) rfl (f := ⟨Demo.builtins, Option.none, Option.none⟩) hg
        (.last ?_)
      exact Demo.operator f1 hcr b1 (v := .func "catch" (-2)) (by decide) rfl (by decide) hi
    · have hg3 : s3.frames[0]? = some ⟨Demo.builtins, Option.none, Option.none⟩ := Demo.global (s := s3) f2
      exact .closure (ps := ["k", "v"]) (rest := Option.none) (body := [.num 5]) (by decide) rfl hg3 (.last ⟨1, rfl⟩)
  · refine ⟨?_, ?_, h.mods, h.cur, h.root, h.live, ?_⟩
    · obtain ⟨fs, hfs⟩ := f2
      exact ⟨fs ++ [⟨[("v", .num 1), ("k", .sym "outer")], some 0, Option.none⟩], by
        show s2.frames ++ _ = _
        rw [hfs]; simp⟩
    · intro x
      exact noMacro_push (s := s2) (nm2 x) (by intro q hq; simp at hq; rcases hq with rfl | rfl <;> rfl)
    · refine ⟨fun c hc => ?_, fun i hi => ?_⟩
      · have hc' : c ∈ (⟨s.next, .bool true⟩ : Catch) :: s.catches := hc
        show c.id < s.next + 2
        rcases List.mem_cons.1 hc' with rfl | hc'
        · simp
        · have := h.wf.catches c hc'; omega
      · have := h.wf.live i hi
        show i < s.next + 2
        omega

/-- `n` evaluations of `x`, one after the other. -/
inductive Repeat (P : Prims σ) (x : V) : Nat → St σ → St σ → Prop
  | zero {s} : Repeat P x 0 s s
  | succ {n s s1 s' v} : Repeat P x n s s1 → Evals P 0 x s1 (.ok v) s' → Repeat P x (n + 1) s s'

theorem Demo.idle0 : Demo.Idle Demo.s0 :=
  ⟨⟨[], by simp⟩, Demo.noMacro_s0, rfl, rfl, rfl, rfl, Demo.wfc⟩

theorem crossing_repeat (n : Nat) (hn : n ≤ 99) :
    ∃ s, Repeat Demo.prims crossing n Demo.s0 s ∧ Demo.Idle s ∧ s.catches.length = n := by
  induction n with
  | zero => exact ⟨_, .zero, Demo.idle0, rfl⟩
  | succ n ih =>
    obtain ⟨s, h1, h2, h3⟩ := ih (by omega)
    obtain ⟨s', h4, h5, h6⟩ := crossing_leaks h2 (by omega)
    exact ⟨s', .succ h1 h4, h5, by rw [h6]; simp [h3]⟩

/-- `(catch 'a (lambda () (catch 'b (lambda () 1) (lambda (k v) 0))) (lambda (k v) 0))`: no error anywhere. -/
def nested : V :=
  listOf [.sym "catch", quoted (.sym "a"),
    listOf [.sym "lambda", .nil,
      listOf [.sym "catch", quoted (.sym "b"), listOf [.sym "lambda", .nil, .num 1],
        listOf [.sym "lambda", listOf [.sym "k", .sym "v"], .num 0]]],
    listOf [.sym "lambda", listOf [.sym "k", .sym "v"], .num 0]]

/-- C62 fails: after 99 handled errors of this kind there is no room left on the catch stack: a program that raises no error and only nests two
catches, and that evaluates to 1 in a fresh interpreter, dies -- the inner catch raises "too many nested catches" and the search for a
handler follows the stale pointers. -/
theorem c62_exhausted_counterexample : (∃ s', Evals Demo.prims 0 nested Demo.s0 (.ok (.num 1)) s') ∧
    ∃ s, Repeat Demo.prims crossing 99 Demo.s0 s ∧ ∃ s', Evals Demo.prims 0 nested s (.stop .ub) s' := by
  refine ⟨Demo.evals_of 12 (by decide +kernel), ?_⟩
  obtain ⟨s, h1, h, h3⟩ := crossing_repeat 99 (by omega)
  refine ⟨s, h1, ?_⟩
  have hg := Demo.global h.frames
  have hq : ∀ (s : St Unit) (env : Nat) (v : V), NoMacro s "quote" → Evals Demo.prims env (quoted v) s (.ok v) s :=
    fun s env v h => evals_quoted (Ev.NoMacro.quoteOk h env)
  let fr : Frame := ⟨[], some 0, Option.none⟩
  let n := s.frames.length
  have npos : 0 < n := (List.getElem?_eq_some_iff.1 hg).1
  let s1 : St Unit := { catching (.sym "a") s with frames := s.frames ++ [fr] }
  have nm1 : ∀ x, NoMacro s1 x := fun x => noMacro_push (h.noMacro x) (by simp)
  have f1 : ∃ fs, s1.frames = Demo.s0.frames ++ fs := by
    obtain ⟨fs, hfs⟩ := h.frames
    exact ⟨fs ++ [fr], by simp [s1, hfs]⟩
  have b1 : Demo.Base s1 n := .up (p := 0) (by simp [s1, n, fr]) npos .zero
  have hcr : s.cur = s.root := by rw [h.cur, h.root]
  have hi : Evals Demo.prims n (catchExpr (quoted (.sym "b")) (listOf [.sym "lambda", .nil, .num 1])
      (listOf [.sym "lambda", listOf [.sym "k", .sym "v"], .num 0])) s1 (.stop .ub) s1 := by
    rw [evals_iff]
    refine (run_func (s' := s1) (.cons (hq _ _ _ (nm1 _)) (.cons (Demo.lambda (ps := []) (nm1 _))
      (.cons (Demo.lambda (ps := ["k", "v"]) (nm1 _)) .nil))) (.inl rfl)).trans ?_
    show runCatch (run Demo.prims) (.sym "b") _ _ _ _ _ _ s1 = _
    unfold runCatch
    have hge : s1.catches.length ≥ 100 := by show s.catches.length + 1 ≥ 100; omega
    rw [Ev.getSt_bind, if_pos hge]
    show some (Out.stop (throwStop s1 "error" _), s1) = _
    have : scan s1.live "error" s1.catches = .dangling := by
      show scan (s.next :: s.live) "error" (⟨s.next, .sym "a"⟩ :: s.catches) = _
      cases hc : s.catches with
      | nil => rw [hc] at h3; cases h3
      | cons c cs =>
        have hlt := h.wf.catches c (by rw [hc]; simp)
        have : ¬ c.id = s.next := by omega
        simp [scan, tagMatches, h.live, this]
    unfold throwStop
    rw [this]
  let outer : V := .proc .nil (listOf [listOf [.sym "catch", quoted (.sym "b"), listOf [.sym "lambda", .nil, .num 1],
        listOf [.sym "lambda", listOf [.sym "k", .sym "v"], .num 0]]]) 0
  let hout : V := .proc (paramList ["k", "v"] Option.none) (listOf [.num 0]) 0
  refine ⟨s1, Demo.operator h.frames hcr .zero (v := .func "catch" (-2)) (by decide) rfl (by decide) ?_⟩
  refine c61_catch_partial (tag := .sym "a") (thunk := outer) (handler := hout) (s := s) h.wf
    (.cons (hq _ _ _ (h.noMacro _)) (.cons (Demo.lambda (ps := []) (h.noMacro _)) (.cons (Demo.lambda (ps := ["k", "v"]) (h.noMacro _)) .nil)))
    (.inr ⟨_, rfl⟩) ⟨_, _, _, rfl⟩ ⟨_, _, _, rfl⟩ (by omega) (.passes ?_ (by simp))
  refine .closure (ps := []) (rest := Option.none) (body := [_]) (by decide) rfl (f := ⟨Demo.builtins, Option.none, Option.none⟩) hg
    (.last ?_)
  exact Demo.operator f1 hcr b1 (v := .func "catch" (-2)) (by decide) rfl (by decide) hi

end Pscm
