import Verif.EvScope
import Verif.EvCallProps
import Verif.EvDoProps
import Verif.EvNamedLet
/-!
# C89: no dangling environments; C45, C48, C49, C52 in every reachable state
-/
namespace Pscm
open Ev
variable {σ : Type} {W : (Nat → Prop) → σ → Prop} {P : Prims σ}

/-! ## C89 -/

/-- A state before any program has run: only the global environment, and no procedure, promise, guard or continuation of a program. -/
structure Initial (W : (Nat → Prop) → σ → Prop) (s : St σ) : Prop where
  frames : ∃ es m, s.frames = [⟨es, Option.none, m⟩] ∧ ∀ b ∈ es, envsOf b.2 = []
  mods : ∀ m ∈ s.mods, ∀ b ∈ m.obarray, envsOf b.2 = []
  proms : s.proms = []
  winds : s.winds = []
  conts : s.conts = []
  ext : W (fun _ => False) s.ext

/-- The states that can be reached from `s0`: by evaluating an expression in an existing environment, whatever the outcome, by entering a
procedure whose environment exists, and by binding its parameters.  Expressions may contain values computed before. -/
inductive Reached (P : Prims σ) (s0 : St σ) : St σ → Prop
  | start : Reached P s0 s0
  | eval {s s' : St σ} {env : EnvId} {x : V} {o : Out V} : Reached P s0 s → env < s.frames.length →
      MentionsOnly (· < s.frames.length) x → Evals P env x s o s' → Reached P s0 s'
  | enter {s : St σ} {penv : EnvId} {m : Option Nat} : Reached P s0 s → penv < s.frames.length → Reached P s0 (enter s penv m)
  | bind {s : St σ} {e : EnvId} {es : List (Name × V)} : Reached P s0 s → (∀ b ∈ es, MentionsOnly (· < s.frames.length) b.2) →
      Reached P s0 (withEntries s e es)

/-- C89: an initial state mentions no environment but the global one. -/
theorem c89_initial (hP : HonestWorld W P) {s : St σ} (h : Initial W s) : Scoped W s := by
  obtain ⟨es, m, hfr, hes⟩ := h.frames
  have none : ∀ {v : V}, envsOf v = [] → MentionsOnly (· < s.frames.length) v := by
    intro v hv e he
    rw [hv] at he
    cases he
  refine ⟨by simp [hfr], ?_, ?_, fun m hm b hb => none (h.mods m hm b hb), ?_, ?_, ?_, hP.mono _ _ _ (fun _ h => h.elim) h.ext⟩
  · intro f hf b hb
    rw [hfr, List.mem_singleton] at hf
    subst hf
    exact none (hes b hb)
  · intro f hf p hp
    rw [hfr, List.mem_singleton] at hf
    subst hf
    cases hp
  · rw [h.proms]; exact fun p hp => by cases hp
  · rw [h.winds]; exact fun p hp => by cases hp
  · rw [h.conts]; exact fun p hp => by cases hp

/-- C89: evaluation preserves it, and what it returns or raises mentions only environments that exist. -/
theorem c89_scope {env : EnvId} {x : V} {s s' : St σ} {o : Out V} (hP : HonestWorld W P) (hs : Scoped W s) (he : env < s.frames.length)
    (hx : MentionsOnly (· < s.frames.length) x) (h : Evals P env x s o s') :
    Scoped W s' ∧ ∀ v ∈ outValues o, MentionsOnly (· < s'.frames.length) v := by
  have hr := evals_iff.1 h
  have hle : s.frames.length ≤ s'.frames.length := (mono_run (P := P) _).le hr
  exact scope_run (t := .eval env x) hP hs ⟨Nat.lt_of_lt_of_le he hle, clean_iff.2 (hx.weaken fun i hi => Nat.lt_of_lt_of_le hi hle)⟩ hr

theorem scoped_enter {s : St σ} {penv : EnvId} {m : Option Nat} (hP : HonestWorld W P) (hs : Scoped W s) (hp : penv < s.frames.length) :
    Scoped W (enter s penv m) := by
  have hl : (enter s penv m).frames.length = s.frames.length + 1 := by simp [enter]
  have up : ∀ {v : V}, MentionsOnly (· < s.frames.length) v → MentionsOnly (· < (enter s penv m).frames.length) v := fun hv =>
    hv.weaken fun i hi => by rw [hl]; omega
  refine ⟨by rw [hl]; omega, ?_, ?_, fun m hm b hb => up (hs.mods m hm b hb), ?_, fun w hw => ⟨up (hs.winds w hw).1, up (hs.winds w hw).2⟩,
    fun c hc w hw => ⟨up (hs.conts c hc w hw).1, up (hs.conts c hc w hw).2⟩, hP.mono _ _ _ (fun i hi => ?_) hs.ext⟩
  · intro f hf b hb
    rcases List.mem_append.1 hf with hf | hf
    · exact up (hs.vars f hf b hb)
    · rw [List.mem_singleton] at hf; subst hf; cases hb
  · intro f hf p hp'
    rw [hl]
    rcases List.mem_append.1 hf with hf | hf
    · have := hs.parents f hf p hp'; omega
    · rw [List.mem_singleton] at hf; subst hf; cases hp'; omega
  · intro p hp'
    obtain ⟨h1, h2, h3⟩ := hs.proms p hp'
    exact ⟨by rw [hl]; omega, up h2, fun v hv => up (h3 v hv)⟩
  · show i < (enter s penv m).frames.length
    have : i < s.frames.length := hi
    rw [hl]; omega

theorem scoped_bind {s : St σ} {e : EnvId} {es : List (Name × V)} (hs : Scoped W s)
    (hes : ∀ b ∈ es, MentionsOnly (· < s.frames.length) b.2) : Scoped W (withEntries s e es) := by
  have hl : (withEntries s e es).frames.length = s.frames.length := by simp [withEntries]
  have fr : ∀ f ∈ (withEntries s e es).frames, ∃ g ∈ s.frames, f.parent = g.parent ∧ (f.entries = g.entries ∨ f.entries = es) := by
    intro f hf
    obtain ⟨i, hi⟩ := List.mem_iff_getElem?.1 hf
    simp only [withEntries, List.getElem?_modify] at hi
    cases hg : s.frames[i]? with
    | none => rw [hg] at hi; cases hi
    | some g =>
      rw [hg] at hi
      simp only [Option.map_eq_map, Option.map_some, Option.some.injEq] at hi
      refine ⟨g, List.mem_of_getElem? hg, ?_⟩
      split at hi
      · subst hi; exact ⟨rfl, .inr rfl⟩
      · subst hi; exact ⟨rfl, .inl rfl⟩
  refine ⟨by rw [hl]; exact hs.global, ?_, ?_, by rw [hl]; exact hs.mods, by rw [hl]; exact hs.proms, by rw [hl]; exact hs.winds,
    by rw [hl]; exact hs.conts, by rw [hl]; exact hs.ext⟩
  · intro f hf b hb
    rw [hl]
    obtain ⟨g, hg, _, h | h⟩ := fr f hf
    · exact hs.vars g hg b (h ▸ hb)
    · exact hes b (h ▸ hb)
  · intro f hf p hp
    rw [hl]
    obtain ⟨g, hg, h, _⟩ := fr f hf
    exact hs.parents g hg p (h ▸ hp)

/-- C89: in every state that a program can reach, every environment mentioned anywhere exists. -/
theorem c89_reachable {s0 s : St σ} (hP : HonestWorld W P) (h0 : Initial W s0) (h : Reached P s0 s) : Scoped W s := by
  induction h with
  | start => exact c89_initial hP h0
  | eval _ he hx hev ih => exact (c89_scope hP ih he hx hev).1
  | «enter» _ hp ih => exact scoped_enter hP ih hp
  | «bind» _ hes ih => exact scoped_bind ih hes

/-- C89: so a procedure that a program gets hold of can always be entered: its environment exists. -/
theorem c89_procedure {s0 s s' : St σ} {env : EnvId} {x p b : V} {e : EnvId} (hP : HonestWorld W P) (h0 : Initial W s0)
    (h : Reached P s0 s) (he : env < s.frames.length) (hx : MentionsOnly (· < s.frames.length) x)
    (hev : Evals P env x s (.ok (.proc p b e)) s') : ∃ f, s'.frames[e]? = some f := by
  obtain ⟨_, hv⟩ := c89_scope hP (c89_reachable hP h0 h) he hx hev
  have : e < s'.frames.length := hv _ (List.mem_singleton_self _) e List.mem_cons_self
  exact ⟨_, List.getElem?_eq_some_iff.2 ⟨this, rfl⟩⟩

/-! ## The theorems about calls, without the hypothesis on unreferenced frames -/

theorem mentions_others {n : Nat} {xs : List V} (h : ∀ x ∈ xs, MentionsOnly (· < n) x) : CleanL (others n) xs :=
  fun x hx => clean_iff.2 ((h x hx).weaken fun _ hi => Nat.ne_of_lt hi)

/-- C45 in every reachable state. -/
theorem c45_call_reachable {env penv : EnvId} {ps : List Name} {rest : Option Name} {body args vs : List V} {f : Frame} {s0 s s1 s' : St σ}
    {o : Out V} (hP : HonestWorld W P) (h0 : Initial W s0) (hr : Reached P s0 s) (hf : s.frames[penv]? = some f)
    (he : env < s.frames.length) (ha : ∀ a ∈ args, MentionsOnly (· < s.frames.length) a) (hb : body ≠ [])
    (hnd : (ps ++ rest.toList).Nodup) (hcnt : CountOk ps rest args.length)
    (hv : ArgsEval (Evals P) env args (enter s penv f.modl) (.ok vs) s1) :
    Evals P env (callExpr ps rest body penv args) s o s' ↔
      SeqEval (Evals P) s.frames.length body (withEntries s1 s.frames.length (callBindings ps rest vs)) o s' :=
  c45_call (hP.honest _) ((c89_reachable hP h0 hr).unreferenced hP) hf he (mentions_others ha) hb hnd hcnt hv

theorem c45_call_stop_reachable {env penv : EnvId} {ps : List Name} {rest : Option Name} {body args : List V} {f : Frame} {s0 s s1 : St σ}
    {e : Stop} (hP : HonestWorld W P) (h0 : Initial W s0) (hr : Reached P s0 s) (hf : s.frames[penv]? = some f)
    (he : env < s.frames.length) (ha : ∀ a ∈ args, MentionsOnly (· < s.frames.length) a)
    (hnd : (ps ++ rest.toList).Nodup) (hcnt : CountOk ps rest args.length)
    (hv : ArgsEval (Evals P) env args (enter s penv f.modl) (.stop e) s1) :
    ∃ es, Evals P env (callExpr ps rest body penv args) s (.stop e) (withEntries s1 s.frames.length es) :=
  c45_call_stop (hP.honest _) ((c89_reachable hP h0 hr).unreferenced hP) hf he (mentions_others ha) hnd hcnt hv

theorem c45_call_terminates_reachable {env penv : EnvId} {ps : List Name} {rest : Option Name} {body args : List V} {f : Frame}
    {s0 s s' : St σ} {o : Out V} (hP : HonestWorld W P) (h0 : Initial W s0) (hr : Reached P s0 s) (hf : s.frames[penv]? = some f)
    (he : env < s.frames.length) (ha : ∀ a ∈ args, MentionsOnly (· < s.frames.length) a)
    (hnd : (ps ++ rest.toList).Nodup) (hcnt : CountOk ps rest args.length)
    (h : Evals P env (callExpr ps rest body penv args) s o s') :
    ∃ o1 s1, ArgsEval (Evals P) env args (enter s penv f.modl) o1 s1 :=
  c45_call_terminates (hP.honest _) ((c89_reachable hP h0 hr).unreferenced hP) hf he (mentions_others ha) hnd hcnt h

/-- C48 in every reachable state. -/
theorem c48_let_reachable {env : EnvId} {bs : List (Name × V)} {body vs : List V} {f : Frame} {s0 s s1 s' : St σ} {o : Out V}
    (hP : HonestWorld W P) (h0 : Initial W s0) (hr : Reached P s0 s) (hm : NoMacro s "let") (hm' : NoMacro s "lambda")
    (hf : s.frames[env]? = some f) (ha : ∀ b ∈ bs, MentionsOnly (· < s.frames.length) b.2) (hb : body ≠ [])
    (hnd : (bs.map Prod.fst).Nodup) (hv : ArgsEval (Evals P) env (bs.map Prod.snd) (enter s env f.modl) (.ok vs) s1) :
    Evals P env (listOf (.sym "let" :: bindingList bs :: body)) s o s' ↔
      SeqEval (Evals P) s.frames.length body (withEntries s1 s.frames.length ((bs.map Prod.fst).zip vs).reverse) o s' :=
  c48_let_meaning (hP.honest _) ((c89_reachable hP h0 hr).unreferenced hP) hm hm' hf
    (mentions_others fun x hx => by obtain ⟨b, hb, rfl⟩ := List.mem_map.1 hx; exact ha b hb) hb hnd hv

theorem reached_wf {s0 s : St σ} (h0 : Initial W s0) (h : Reached P s0 s) : FramesWF s.frames := by
  induction h with
  | start =>
    obtain ⟨es, m, hfr, _⟩ := h0.frames
    intro i f p hf hp
    rw [hfr] at hf
    match i with
    | 0 => cases hf; cases hp
    | i + 1 => cases hf
  | eval _ _ _ hev ih => exact (run_ext (evals_iff.1 hev)).wf ih
  | @«enter» s penv m _ hlt ih =>
    intro i g p hg hp
    simp only [enter] at hg
    rw [List.getElem?_append] at hg
    split at hg
    · exact ih i g p hg hp
    · have hi := (List.getElem?_eq_some_iff.1 hg).1
      simp only [List.length_singleton] at hi
      have h0 : i - s.frames.length = 0 := by omega
      rw [h0] at hg
      simp only [List.getElem?_cons_zero, Option.some.injEq] at hg
      subst hg
      cases hp
      omega
  | @«bind» s e es _ _ ih =>
    intro i g p hg hp
    simp only [withEntries, List.getElem?_modify] at hg
    cases hs : s.frames[i]? with
    | none => rw [hs] at hg; cases hg
    | some f =>
      rw [hs] at hg
      simp only [Option.map_eq_map, Option.map_some, Option.some.injEq] at hg
      refine ih i f p hs ?_
      split at hg <;> (subst hg; exact hp)

/-- C49 in every reachable state; partial as `c49_loop_partial`. -/
theorem c49_loop_reachable_partial {env : EnvId} {loop : Name} {bs : List (Name × V)} {b : V} {vs : List V} {s0 s s1 s' : St σ} {o : Out V}
    {f : Frame} (hP : HonestWorld W P) (h0 : Initial W s0) (hr : Reached P s0 s)
    (hf : s.frames[env]? = some f) (hm : NoMacro s "let") (hml : NoMacro s "lambda")
    (hm1 : ∀ x ∈ ["let", "letrec", "lambda", "set!"], NoMacro s1 x) (hloop : formOf loop = Option.none)
    (hbs : bs ≠ []) (hnd : (bs.map Prod.fst).Nodup) (hlt : ∀ i, loop ≠ tempName i)
    (ha : ∀ b ∈ bs, MentionsOnly (· < s.frames.length) b.2)
    (hv : ArgsEval (Evals P) env (bs.map Prod.snd) (enter s env f.modl) (.ok vs) s1) :
    Evals P env (listOf [.sym "let", .sym loop, bindingList bs, b]) s o s' ↔
    Evals P (s1.frames.length + 1) b
      { s1 with frames := (withEntries s1 s.frames.length ((temps bs.length).zip vs).reverse).frames ++
        [⟨[(loop, .proc (listOf (bs.map fun b => .sym b.1)) (listOf [b]) s1.frames.length)], some s.frames.length, f.modl⟩,
         ⟨((bs.map Prod.fst).zip vs).reverse, some s1.frames.length, f.modl⟩] } o s' :=
  c49_loop_partial (hP.honest _) ((c89_reachable hP h0 hr).unreferenced hP) (reached_wf h0 hr) hf hm hml hm1 hloop hbs hnd hlt
    (mentions_others fun x hx => by obtain ⟨b, hb, rfl⟩ := List.mem_map.1 hx; exact ha b hb) hv

/-- C52 in every reachable state; partial as `c52_do_partial`. -/
theorem c52_do_reachable_partial {env : EnvId} {vars : List DoVar} {test : V} {res body vs : List V} {f : Frame} {s0 s s1 s' : St σ}
    {o : Out V} (hP : HonestWorld W P) (h0 : Initial W s0) (hr : Reached P s0 s) (hm : NoMacro s "do")
    (hf : s.frames[env]? = some f) (ha : ∀ b ∈ vars, MentionsOnly (· < s.frames.length) b.init) (hnd : (vars.map DoVar.name).Nodup)
    (hv : ArgsEval (Evals P) env (vars.map DoVar.init) (enter s env f.modl) (.ok vs) s1)
    (hun : ∀ b ∈ vars, Unbound s1.frames b.name env)
    (h : DoLoop (Evals P) s.frames.length test res body (stepVars vars)
      (withEntries s1 s.frames.length ((vars.map DoVar.name).zip vs).reverse) o s') :
    Evals P env (doExpr vars test res body) s o s' :=
  c52_do_partial (hP.honest _) ((c89_reachable hP h0 hr).unreferenced hP) hm hf
    (mentions_others fun x hx => by obtain ⟨b, hb, rfl⟩ := List.mem_map.1 hx; exact ha b hb) hnd hv hun h

/-! ## Non-vacuity -/

theorem mentions_listOf {D : Nat → Prop} {xs : List V} : MentionsOnly D (listOf xs) ↔ ∀ x ∈ xs, MentionsOnly D x := by
  induction xs with
  | nil => simp [listOf, MentionsOnly, envsOf]
  | cons x xs ih =>
    simp only [List.mem_cons, forall_eq_or_imp, ← ih]
    simp only [listOf, MentionsOnly, envsOf, List.mem_append]
    exact ⟨fun h => ⟨fun e he => h e (.inl he), fun e he => h e (.inr he)⟩, fun h e he => he.elim (h.1 e) (h.2 e)⟩

theorem Demo.honestWorld : HonestWorld (fun _ _ => True) Demo.prims where
  mono := fun _ _ _ _ _ => trivial
  call := by
    intro D nm args x ha _
    unfold Demo.prims
    dsimp only
    split
    · exact ⟨trivial, fun e he => by cases he⟩
    · refine ⟨trivial, fun e he => ?_⟩
      rcases List.mem_append.1 he with he | he
      · exact ha _ (by simp) e he
      · exact ha _ (by simp) e he
    · exact ⟨trivial, fun e he => ha _ (List.mem_singleton_self _) e (List.mem_append.2 (.inl he))⟩
    · exact ⟨trivial, mentions_listOf.2 ha⟩
    · exact ⟨trivial, fun e he => by cases he⟩
    · exact ⟨trivial, fun e he => by cases he⟩
  file := fun _ _ _ hf => by cases hf
  init := fun _ _ e he => by cases he

theorem Demo.initial : Initial (fun _ _ => True) Demo.s0 where
  frames := by
    refine ⟨Demo.builtins, Option.none, rfl, ?_⟩
    intro b hb
    simp only [Demo.builtins, List.mem_cons, List.not_mem_nil, or_false] at hb
    rcases hb with rfl | rfl | rfl | rfl | rfl | rfl | rfl | rfl | rfl <;> rfl
  mods := by
    intro m hm b hb
    simp only [Demo.s0, List.mem_singleton] at hm
    subst hm
    cases hb
  proms := rfl
  winds := rfl
  conts := rfl
  ext := trivial

/-- A reachable state with a closure in it: after `(define f (let ((k 5)) (lambda (x) k)))`, the value of `f` is a procedure whose
environment is frame 1, which exists. -/
example : ∃ s' p b f, Reached Demo.prims Demo.s0 s' ∧ s'.frames.length = 2 ∧
    Evals Demo.prims 0 (.sym "f") s' (.ok (.proc p b 1)) s' ∧ s'.frames[1]? = some f ∧ f.entries = [("k", .num 5)] := by
  let prog : V := listOf [.sym "define", .sym "f", listOf [.sym "let", listOf [listOf [.sym "k", .num 5]],
    listOf [.sym "lambda", listOf [.sym "x"], .sym "k"]]]
  have hx : MentionsOnly (· < Demo.s0.frames.length) prog := by
    intro e he
    simp [prog, listOf, envsOf] at he
  exact ⟨_, _, _, _, .eval (x := prog) (env := 0) .start (by decide) hx ⟨8, rfl⟩, rfl, ⟨1, rfl⟩, rfl, rfl⟩

end Pscm
