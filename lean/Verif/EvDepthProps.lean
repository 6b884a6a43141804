import Verif.EvDepth
import Verif.EvHigherProps
import Verif.EvEnvProps
/-!
# C119: tail calls and the C stack

`Deep P job s vals s' k` (module `EvDepth`) gives the number `k` of nested invocations of the evaluator in a successful run.
-/
namespace Pscm
open Ev
variable {σ : Type} {W : (Nat → Prop) → σ → Prop} {P : Prims σ}

/-! ## `Deep` describes runs of the evaluator -/

theorem mentions_pair {D : Nat → Prop} {a d : V} : MentionsOnly D (.pair a d) ↔ MentionsOnly D a ∧ MentionsOnly D d := by
  simp only [MentionsOnly, envsOf, List.mem_append]
  exact ⟨fun h => ⟨fun e he => h e (.inl he), fun e he => h e (.inr he)⟩, fun h e he => he.elim (h.1 e) (h.2 e)⟩

theorem mentions_list {D : Nat → Prop} {xs : List V} : MentionsOnly D (listOf xs) ↔ ∀ x ∈ xs, MentionsOnly D x := by
  induction xs with
  | nil => simp [listOf, MentionsOnly, envsOf]
  | cons x xs ih => simp only [listOf, mentions_pair, ih, List.forall_mem_cons]

/-- The environment and the expressions of a job. -/
def Ev.Job.env : Job → EnvId
  | .eval e _ => e
  | .args e _ => e
  | .seq e _ => e

def Ev.Job.exprs : Job → List V
  | .eval _ x => [x]
  | .args _ xs => xs
  | .seq _ xs => xs

/-- What the evaluator does with a job. -/
def Ev.Job.Done (P : Prims σ) : Job → St σ → List V → St σ → Prop
  | .eval e x, s, r, s' => ∃ v, r = [v] ∧ Evals P e x s (.ok v) s'
  | .args e xs, s, r, s' => ArgsEval (Evals P) e xs s (.ok r) s'
  | .seq e xs, s, r, s' => ∃ v, r = [v] ∧ SeqEval (Evals P) e xs s (.ok v) s'

theorem builtin_evals {env : EnvId} {n : Name} {a : Int} {es vs : List V} {s s1 : St σ} {v : V} {x : σ} (hn : n ∉ interpreterNames)
    (ha : a = (vs.length : Int) ∧ vs.length ≤ 3 ∨ a = -2) (hx : ArgsEval (Evals P) env es s (.ok vs) s1)
    (hc : P.call n vs s1.ext = .done (.ok v) x) : Evals P env (.pair (.func n a) (listOf es)) s (.ok v) { s1 with ext := x } := by
  rw [evals_step]
  show evalFuncCall P (run P) env n _ (listOf es) s = _
  have hn' := hn
  simp only [interpreterNames, List.mem_cons, not_or, List.not_mem_nil, not_false_eq_true, and_true] at hn'
  obtain ⟨_, _, _, _, _, _, _, _, _, _, h11, h12, h13, h14, h15, _, _, _, _, _, _, _, _, _, _⟩ := hn'
  simp only [evalFuncCall, isCallCC, h11, h12, h13, h14, h15, nodes_listOf]
  simp only [or_self, decide_false, Bool.or_self, Bool.false_eq_true, if_false, bind_apply, evalArgs_iff.2 hx]
  rw [callFunc_ext hn ha]
  refine extPrim_of ?_
  rw [hc]
  exact .ret

/-- `Deep` is adequate: a job with a depth is carried out by the evaluator, with that result. -/
theorem deep_adequate (hP : HonestWorld W P) {j : Job} {s s' : St σ} {r : List V} {k : Nat} (h : Deep P j s r s' k) :
    Scoped W s → j.env < s.frames.length → (∀ x ∈ j.exprs, MentionsOnly (· < s.frames.length) x) →
      j.Done P s r s' ∧ Scoped W s' ∧ s.frames.length ≤ s'.frames.length ∧ ∀ v ∈ r, MentionsOnly (· < s'.frames.length) v := by
  -- what a single evaluation gives
  have fin : ∀ {e : EnvId} {x : V} {s s' : St σ} {v : V}, Evals P e x s (.ok v) s' → Scoped W s → e < s.frames.length →
      MentionsOnly (· < s.frames.length) x →
      (Job.eval e x).Done P s [v] s' ∧ Scoped W s' ∧ s.frames.length ≤ s'.frames.length ∧ ∀ w ∈ [v], MentionsOnly (· < s'.frames.length) w := by
    intro e x s s' v hv hs he hx
    obtain ⟨h1, h2⟩ := c89_scope hP hs he hx hv
    exact ⟨⟨v, rfl, hv⟩, h1, (mono_run (P := P) _).le (evals_iff.1 hv), h2⟩
  induction h with
  | atom ha =>
    intro hs he hx
    refine fin (evals_iff.2 (run_self ?_)) hs he (hx _ (List.mem_singleton_self _))
    rename_i e0 _
    cases e0 <;> first | exact ha.elim | trivial
  | var hv => intro hs he hx; exact fin hv hs he (hx _ (List.mem_singleton_self _))
  | quote hq hm =>
    intro hs he hx
    subst hq
    exact fin (evals_quoted (hm.quoteOk _)) hs he (hx _ (List.mem_singleton_self _))
  | ifTrue hi hm _ hv _ ih1 ih2 =>
    intro hs he hx
    subst hi
    have hx := hx _ (List.mem_singleton_self _)
    obtain ⟨_, hc, ha, hb, _⟩ := by simpa only [mentions_pair] using hx
    obtain ⟨⟨_, e1, d1⟩, s1, l1, _⟩ := ih1 hs he (by simpa [Job.exprs] using hc)
    cases e1
    have he2 := Nat.lt_of_lt_of_le he l1
    obtain ⟨⟨w, e2, d2⟩, s2, l2, m2⟩ := ih2 s1 he2 (by simpa [Job.exprs] using ha.weaken fun i hi => Nat.lt_of_lt_of_le hi l1)
    subst e2
    exact ⟨⟨w, rfl, (c42_if P _ _ _ _ _ _ _ hm).2 (.yes d1 hv d2)⟩, s2, Nat.le_trans l1 l2, m2⟩
  | ifFalse hi hm _ _ ih1 ih2 =>
    intro hs he hx
    subst hi
    have hx := hx _ (List.mem_singleton_self _)
    obtain ⟨_, hc, ha, hb, _⟩ := by simpa only [mentions_pair] using hx
    obtain ⟨⟨_, e1, d1⟩, s1, l1, _⟩ := ih1 hs he (by simpa [Job.exprs] using hc)
    cases e1
    have he2 := Nat.lt_of_lt_of_le he l1
    obtain ⟨⟨w, e2, d2⟩, s2, l2, m2⟩ := ih2 s1 he2 (by simpa [Job.exprs] using hb.weaken fun i hi => Nat.lt_of_lt_of_le hi l1)
    subst e2
    exact ⟨⟨w, rfl, (c42_if P _ _ _ _ _ _ _ hm).2 (.no d1 d2)⟩, s2, Nat.le_trans l1 l2, m2⟩
  | begin hi hr hm _ ih =>
    intro hs he hx
    subst hi hr
    have hx := hx _ (List.mem_singleton_self _)
    obtain ⟨⟨w, e2, d2⟩, s2, l2, m2⟩ := ih hs he (mentions_list.1 (mentions_pair.1 hx).2)
    subst e2
    exact ⟨⟨w, rfl, (c44_begin P _ _ _ _ _ _ hm).2 d2⟩, s2, l2, m2⟩
  | operator hc hm hf hk hv _ ih =>
    intro hs he hx
    have hx := hx _ (List.mem_singleton_self _)
    obtain ⟨_, hvm⟩ := c89_scope hP hs he (mentions_pair.1 hx).1 hv
    obtain ⟨⟨w, e2, d2⟩, s2, l2, m2⟩ := ih hs he (by
      simpa [Job.exprs] using mentions_pair.2 ⟨hvm _ (List.mem_singleton_self _), (mentions_pair.1 hx).2⟩)
    subst e2
    exact ⟨⟨w, rfl, (c38_operator_partial P _ _ _ _ _ _ _ hc hm hf hk hv).2 d2⟩, s2, l2, m2⟩
  | builtin hr hn ha _ hc ih =>
    intro hs he hx
    subst hr
    have hx := hx _ (List.mem_singleton_self _)
    obtain ⟨d1, s1, l1, _⟩ := ih hs he (mentions_list.1 (mentions_pair.1 hx).2)
    exact fin (builtin_evals hn ha d1 hc) hs he hx
  | closure hr hp hb hf hnd hcnt _ _ ih1 ih2 =>
    intro hs he hx
    subst hr hp hb
    have hx := hx _ (List.mem_singleton_self _)
    have hpl := (List.getElem?_eq_some_iff.1 hf).1
    have hargs := mentions_list.1 (mentions_pair.1 hx).2
    have hbody : ∀ e ∈ _, MentionsOnly (· < _) e := mentions_list.1 fun e he => (mentions_pair.1 hx).1 e (by
      simp only [envsOf, List.mem_cons, List.mem_append]; exact .inr (.inr he))
    obtain ⟨d1, s1, l1, m1⟩ := ih1 (scoped_enter hP hs hpl) (by show _ < (enter _ _ _).frames.length; simp [enter]; exact Nat.lt_succ_of_lt he)
      (fun a ha => (hargs a ha).weaken fun i hi => by simp [enter]; omega)
    have l1' := l1
    simp only [enter, List.length_append, List.length_singleton] at l1'
    obtain ⟨⟨w, e2, d2⟩, s2, l2, m2⟩ := ih2 (scoped_bind s1 fun b hb => by
        simp only [callBindings, List.mem_reverse, List.mem_append] at hb
        rcases hb with hb | hb
        · exact m1 _ (List.of_mem_zip hb).2
        · split at hb
          · rw [List.mem_singleton] at hb
            subst hb
            exact mentions_list.2 fun v hv => m1 v (List.mem_of_mem_drop hv)
          · cases hb)
      (by simp only [Job.env, withEntries, List.length_modify]; omega)
      (fun e he => (hbody e he).weaken fun i hi => by simp only [withEntries, List.length_modify]; omega)
    subst e2
    refine ⟨⟨w, rfl, (c45_call (hP.honest _) (hs.unreferenced hP) hf he (mentions_others hargs) (List.cons_ne_nil _ _) hnd hcnt d1).2 d2⟩, s2, ?_, m2⟩
    simp only [withEntries, List.length_modify] at l2
    omega
  | argsNil => intro hs he _; exact ⟨.nil, hs, Nat.le_refl _, fun v hv => by cases hv⟩
  | argsCons _ _ ih1 ih2 =>
    intro hs he hx
    obtain ⟨⟨_, e1, d1⟩, s1, l1, m1⟩ := ih1 hs he (fun x h => by cases List.mem_singleton.1 h; exact hx _ (.head _))
    cases e1
    obtain ⟨d2, s2, l2, m2⟩ := ih2 s1 (Nat.lt_of_lt_of_le he l1) (fun x h => (hx x (.tail _ h)).weaken fun i hi => Nat.lt_of_lt_of_le hi l1)
    refine ⟨.cons d1 d2, s2, Nat.le_trans l1 l2, ?_⟩
    intro v hv
    rcases List.mem_cons.1 hv with rfl | hv
    · exact (m1 _ (List.mem_singleton_self _)).weaken fun i hi => Nat.lt_of_lt_of_le hi l2
    · exact m2 v hv
  | seqLast _ ih =>
    intro hs he hx
    obtain ⟨⟨w, e1, d1⟩, s1, l1, m1⟩ := ih hs he hx
    exact ⟨⟨w, e1, .last d1⟩, s1, l1, m1⟩
  | seqNext _ _ ih1 ih2 =>
    intro hs he hx
    obtain ⟨⟨_, e1, d1⟩, s1, l1, m1⟩ := ih1 hs he (fun x h => by cases List.mem_singleton.1 h; exact hx _ (.head _))
    obtain ⟨⟨w, e2, d2⟩, s2, l2, m2⟩ := ih2 s1 (Nat.lt_of_lt_of_le he l1) (fun x h => (hx x (.tail _ h)).weaken fun i hi => Nat.lt_of_lt_of_le hi l1)
    exact ⟨⟨w, e2, .next d1 d2⟩, s2, Nat.le_trans l1 l2, m2⟩

/-! ## C119 -/

/-- The branch of an `if` that is chosen is evaluated in the same invocation: only the test nests. -/
theorem c119_if_partial {env : EnvId} {c a b : V} {s s' : St σ} {r : List V} {k : Nat} (h : Deep P (.eval env (listOf [.sym "if", c, a, b])) s r s' k) :
    ∃ v s1 k1 k2, Deep P (.eval env c) s [v] s1 k1 ∧ Deep P (.eval env (if v = .bool false then b else a)) s1 r s' k2 ∧ k = max (k1 + 1) k2 := by
  generalize hi : "if" = i at h
  cases h with
  | atom ha => exact ha.elim
  | ifTrue _ _ h1 hv h2 => exact ⟨_, _, _, _, h1, by rw [if_neg hv]; exact h2, rfl⟩
  | ifFalse _ _ h1 h2 => exact ⟨_, _, _, _, h1, h2, rfl⟩
  | begin hj => rw [← hi] at hj; exact absurd hj (by decide)
  | operator _ _ hf => rw [← hi] at hf; exact absurd hf (by decide)

theorem seq_last {env : EnvId} {es : List V} {b : V} {s s' : St σ} {r : List V} {k : Nat} (h : Deep P (.seq env (es ++ [b])) s r s' k) :
    ∃ s1 k', Deep P (.eval env b) s1 r s' k' ∧ k' ≤ k := by
  induction es generalizing s k with
  | nil =>
    cases h with
    | seqLast h => exact ⟨_, _, h, Nat.le_refl _⟩
  | cons e es ih =>
    cases hc : es ++ [b] with
    | nil => simp at hc
    | cons e2 es2 =>
      rw [List.cons_append, hc] at h
      cases h with
      | seqNext _ h2 =>
        rw [← hc] at h2
        obtain ⟨s1, k', h3, h4⟩ := ih h2
        exact ⟨s1, k', h3, by omega⟩

/-- C119 is FALSE for calls: the last expression of a procedure body, which is in tail position, is evaluated in an invocation nested in that of the call. -/
theorem c119_call_nests {env penv : EnvId} {ps : List Name} {rst : Option Name} {es args : List V} {b : V} {s s' : St σ} {r : List V} {k : Nat}
    (h : Deep P (.eval env (callExpr ps rst (es ++ [b]) penv args)) s r s' k) :
    ∃ s1 k', Deep P (.eval s.frames.length b) s1 r s' k' ∧ k' < k := by
  unfold callExpr at h
  cases h with
  | atom ha => exact ha.elim
  | closure hr hp hb hf _ _ h1 h2 =>
    rw [← listOf_inj hb] at h2
    obtain ⟨s1, k', h3, h4⟩ := seq_last h2
    exact ⟨s1, k', h3, by omega⟩

/-- The tail-recursive loop over a list: `(define (loop l) (if (null? l) 'done (loop (cdr l))))`. -/
def loopBody : V :=
  listOf [.sym "if", listOf [.sym "null?", .sym "l"], quoted (.sym "done"), listOf [.sym "loop", listOf [.sym "cdr", .sym "l"]]]

def loopProc : V := .proc (paramList ["l"] Option.none) (listOf [loopBody]) 0

/-- The builtins of the loop. -/
structure LoopPrims (P : Prims σ) : Prop where
  nil : ∀ x, P.call "null?" [.nil] x = .done (.ok (.bool true)) x
  pair : ∀ a d x, P.call "null?" [.pair a d] x = .done (.ok (.bool false)) x
  cdr : ∀ a d x, P.call "cdr" [.pair a d] x = .done (.ok d) x

/-- `null?` and `cdr` are bound in the global environment, `loop` has been defined at top level, none of the names used is a macro. -/
structure LoopState (s : St σ) : Prop where
  wf : FramesWF s.frames
  cur : s.cur = s.root
  global : ∃ g, s.frames[0]? = some g ∧ g.parent = Option.none ∧ g.modl = Option.none ∧ g.entries.lookup "null?" = some (.func "null?" 1) ∧
    g.entries.lookup "cdr" = some (.func "cdr" 1) ∧ g.entries.lookup "loop" = Option.none
  loop : moduleValue s.mods s.root s.root "loop" = some loopProc
  noMacro : ∀ x ∈ ["if", "quote", "null?", "cdr", "loop"], NoMacro s x

/-- The state with one more frame, that of a call of `loop`. -/
def withCall (s : St σ) (v : V) : St σ := { s with frames := s.frames ++ [⟨[("l", v)], some 0, Option.none⟩] }

theorem LoopState.call {s : St σ} (h : LoopState s) (v : V) : LoopState (withCall s v) := by
  obtain ⟨g, h0, h1, h2, h3, h4, h5⟩ := h.global
  have hlen : 0 < s.frames.length := (List.getElem?_eq_some_iff.1 h0).1
  refine ⟨?_, h.cur, ⟨g, ?_, h1, h2, h3, h4, h5⟩, h.loop, ?_⟩
  · intro i f p hf hp
    by_cases hi : i < s.frames.length
    · exact h.wf i f p (by rwa [withCall, List.getElem?_append_left hi] at hf) hp
    · simp only [withCall] at hf
      rw [List.getElem?_append_right (by omega)] at hf
      obtain ⟨hlt, rfl⟩ := List.getElem?_eq_some_iff.1 hf
      have : i = s.frames.length := by simp at hlt; omega
      subst this
      simp at hp
      omega
  · rw [withCall, List.getElem?_append_left hlen]; exact h0
  · intro x hx
    refine ⟨fun f hf w hw => ?_, (h.noMacro x hx).2⟩
    rcases List.mem_append.1 hf with hf | hf
    · exact (h.noMacro x hx).1 f hf w hw
    · rw [List.mem_singleton] at hf
      subst hf
      simp only [List.mem_singleton, Prod.mk.injEq] at hw
      rw [hw.1] at hx
      exact absurd hx (by decide)

/-- An environment from which the global bindings are seen: the global one, or the frame of a call of `loop`. -/
def Near (s : St σ) (e : EnvId) : Prop := e = 0 ∨ ∃ v, s.frames[e]? = some ⟨[("l", v)], some 0, Option.none⟩

theorem near_global {s : St σ} (h : LoopState s) {e : EnvId} (hn : Near s e) {x : Name} {v : V} (hx : x ≠ "l") (hk : isKeyword x = false)
    (hb : ∀ g, s.frames[0]? = some g → g.entries.lookup x = some v) : Evals P e (.sym x) s (.ok v) s := by
  obtain ⟨g, h0, _⟩ := h.global
  refine (c38_reference P e x s h.wf hk).1 0 v ?_
  rcases hn with rfl | ⟨w, hw⟩
  · exact .here h0 (hb g h0)
  · refine .up hw ?_ rfl (.here h0 (hb g h0))
    have : (x == "l") = false := by simpa using hx
    simp [List.lookup, this]

theorem near_loop {s : St σ} (h : LoopState s) {e : EnvId} (hn : Near s e) : Evals P e (.sym "loop") s (.ok loopProc) s := by
  obtain ⟨g, h0, h1, h2, _, _, h5⟩ := h.global
  have gu : ∀ i v, ¬ Binds s.frames "loop" 0 i v := by
    intro i v hb
    cases hb with
    | here hf hl => rw [h0] at hf; cases hf; rw [h5] at hl; cases hl
    | up hf _ hp _ => rw [h0] at hf; cases hf; rw [h1] at hp; cases hp
  have gm : ∀ m, ¬ ModuleOf s.frames 0 m := by
    intro m hm
    cases hm with
    | here hf hl => rw [h0] at hf; cases hf; rw [h2] at hl; cases hl
    | up hf _ hp _ => rw [h0] at hf; cases hf; rw [h1] at hp; cases hp
  have hu : Unbound s.frames "loop" e := by
    rcases hn with rfl | ⟨w, hw⟩
    · exact gu
    · intro i v hb
      cases hb with
      | here hf hl => rw [hw] at hf; cases hf; cases hl
      | up hf _ hp hb => rw [hw] at hf; cases hf; cases hp; exact gu i v hb
  have hm : ∀ m, ¬ ModuleOf s.frames e m := by
    rcases hn with rfl | ⟨w, hw⟩
    · exact gm
    · intro m hb
      cases hb with
      | here hf hl => rw [hw] at hf; cases hf; cases hl
      | up hf _ hp hb => rw [hw] at hf; cases hf; cases hp; exact gm m hb
  refine (((c38_reference P e "loop" s h.wf (by decide)).2 hu).2 fun m hm' => absurd hm' (hm m)).1 _ ?_
  rw [h.cur]
  exact h.loop

theorem near_var {s : St σ} (h : LoopState s) {e : EnvId} {v : V} (hw : s.frames[e]? = some ⟨[("l", v)], some 0, Option.none⟩) :
    Evals P e (.sym "l") s (.ok v) s := (c38_reference P e "l" s h.wf (by decide)).1 e v (.here hw rfl)

/-- A call of a builtin with one argument, by its name. -/
theorem deep_builtin1 {s : St σ} (h : LoopState s) {e : EnvId} (hn : Near s e) {f : Name} {x v r : V} {k : Nat} (hf : f ∈ ["null?", "cdr"])
    (hx : Deep P (.eval e x) s [v] s k) (hc : P.call f [v] s.ext = .done (.ok r) s.ext) :
    Deep P (.eval e (listOf [.sym f, x])) s [r] s (k + 1) := by
  have hg : ∀ g, s.frames[0]? = some g → g.entries.lookup f = some (.func f 1) := by
    obtain ⟨g, h0, _, _, h3, h4, _⟩ := h.global
    intro g' hg'
    rw [h0] at hg'
    cases hg'
    simp only [List.mem_cons, List.not_mem_nil, or_false] at hf
    rcases hf with rfl | rfl
    · exact h3
    · exact h4
  have hne : f ≠ "l" ∧ isKeyword f = false ∧ formOf f = Option.none ∧ f ∉ interpreterNames := by
    simp only [List.mem_cons, List.not_mem_nil, or_false] at hf
    rcases hf with rfl | rfl <;> decide
  have hm : NoMacro s f := h.noMacro f (by
    simp only [List.mem_cons, List.not_mem_nil, or_false] at hf ⊢
    rcases hf with rfl | rfl <;> simp)
  refine .operator h.cur hm hne.2.2.1 hne.2.1 (near_global h hn hne.1 hne.2.1 hg) ?_
  have := Deep.builtin (P := P) (env := e) (n := f) (a := 1) (es := [x]) (rest := listOf [x]) (s := s) (vs := [v]) (s1 := s) (v := r) (x := s.ext) (k := k)
    rfl hne.2.2.2 (.inl ⟨rfl, by simp⟩) (by simpa using Deep.argsCons hx .argsNil) hc
  exact this

theorem modify_last {α : Type} (l : List α) (a : α) (g : α → α) : (l ++ [a]).modify l.length g = l ++ [g a] := by
  induction l with
  | nil => rfl
  | cons b l ih => simp [ih]

/-- A call of `loop`, from the depth of its argument and of its body. -/
theorem deep_call {s s' : St σ} (h : LoopState s) {e : EnvId} (hn : Near s e) {x v : V} {r : List V} {k k2 : Nat}
    (hx : Deep P (.eval e x) (enter s 0 Option.none) [v] (enter s 0 Option.none) k)
    (hb : Deep P (.eval s.frames.length loopBody) (withCall s v) r s' k2) :
    Deep P (.eval e (listOf [.sym "loop", x])) s r s' (max k k2 + 1) := by
  obtain ⟨g, h0, _, h2, _⟩ := h.global
  refine .operator h.cur (h.noMacro _ (by simp)) (by decide) (by decide) (near_loop h hn) ?_
  refine .closure (ps := ["l"]) (rst := Option.none) (es := [x]) (vs := [v]) (s1 := enter s 0 Option.none) rfl rfl rfl h0 (by decide) rfl ?_ ?_
  · rw [h2]
    simpa using Deep.argsCons hx .argsNil
  · have : withEntries (enter s 0 Option.none) s.frames.length (callBindings ["l"] Option.none [v]) = withCall s v := by
      simp only [withEntries, enter, withCall, callBindings]
      congr 1
      rw [modify_last]
      rfl
    rw [this]
    exact .seqLast hb

theorem near_self {s : St σ} (v : V) : (withCall s v).frames[s.frames.length]? = some ⟨[("l", v)], some 0, Option.none⟩ := by
  simp [withCall]

/-- `enter` keeps the loop state. -/
theorem LoopState.entered {s : St σ} (h : LoopState s) : LoopState (enter s 0 Option.none) := by
  have hc := h.call .nil
  obtain ⟨g, h0, h1⟩ := h.global
  have hlen : 0 < s.frames.length := (List.getElem?_eq_some_iff.1 h0).1
  refine ⟨?_, h.cur, ⟨g, ?_, h1⟩, h.loop, ?_⟩
  · intro i f p hf hp
    have hlen : (enter s 0 Option.none).frames.length = (withCall s .nil).frames.length := by simp [enter, withCall]
    by_cases hi : i < s.frames.length
    · exact h.wf i f p (by rwa [enter, List.getElem?_append_left hi] at hf) hp
    · simp only [enter] at hf
      rw [List.getElem?_append_right (by omega)] at hf
      obtain ⟨hlt, rfl⟩ := List.getElem?_eq_some_iff.1 hf
      have : i = s.frames.length := by simp at hlt; omega
      subst this
      simp at hp
      omega
  · rw [enter, List.getElem?_append_left hlen]; exact h0
  · intro x hx
    refine ⟨fun f hf w hw => ?_, (h.noMacro x hx).2⟩
    rcases List.mem_append.1 hf with hf | hf
    · exact (h.noMacro x hx).1 f hf w hw
    · rw [List.mem_singleton] at hf
      subst hf
      cases hw

theorem body_deep (hP : LoopPrims P) (xs : List V) (s : St σ) (h : LoopState s) (e : EnvId)
    (he : s.frames[e]? = some ⟨[("l", listOf xs)], some 0, Option.none⟩) :
    ∃ s', Deep P (.eval e loopBody) s [.sym "done"] s' (xs.length + 3) := by
  induction xs generalizing s e with
  | nil =>
    have hc := deep_builtin1 (P := P) h (.inr ⟨_, he⟩) (f := "null?") (by simp) (.var (near_var h he)) (hP.nil s.ext)
    have := Deep.ifTrue (P := P) (env := e) (i := "if") (b := listOf [.sym "loop", listOf [.sym "cdr", .sym "l"]]) rfl (h.noMacro _ (by simp)) hc (by simp)
      (.quote (v := .sym "done") rfl (h.noMacro _ (by simp)))
    exact ⟨s, this⟩
  | cons x xs ih =>
    have hc := deep_builtin1 (P := P) h (.inr ⟨_, he⟩) (f := "null?") (by simp) (.var (near_var h he)) (hP.pair x (listOf xs) s.ext)
    have hen := h.entered
    have he' : (enter s 0 Option.none).frames[e]? = some ⟨[("l", listOf (x :: xs))], some 0, Option.none⟩ := by
      rw [enter, List.getElem?_append_left (List.getElem?_eq_some_iff.1 he).1]; exact he
    have ha := deep_builtin1 (P := P) hen (.inr ⟨_, he'⟩) (f := "cdr") (by simp) (.var (near_var hen he')) (hP.cdr x (listOf xs) s.ext)
    obtain ⟨s', hb⟩ := ih (withCall s (listOf xs)) (h.call _) s.frames.length (near_self _)
    have hcall := deep_call h (.inr ⟨_, he⟩) ha hb
    have := Deep.ifFalse (P := P) (env := e) (i := "if") (a := quoted (.sym "done")) rfl (h.noMacro _ (by simp)) hc hcall
    refine ⟨s', ?_⟩
    have hk : max (1 + 1 + 1) (max (1 + 1) (xs.length + 3) + 1) = (x :: xs).length + 3 := by simp only [List.length_cons]; omega
    rw [← hk]
    exact this

/-- C119 is FALSE: the tail-recursive loop nests one more invocation for every element of the list: on a list of length `n` the C stack holds `n + 4` of them. -/
theorem c119_linear (hP : LoopPrims P) (s : St σ) (h : LoopState s) (xs : List V) :
    ∃ s', Deep P (.eval 0 (listOf [.sym "loop", quoted (listOf xs)])) s [.sym "done"] s' (xs.length + 4) ∧
      ∀ r s'' k, Deep P (.eval 0 (listOf [.sym "loop", quoted (listOf xs)])) s r s'' k → k = xs.length + 4 := by
  have hq : Deep P (.eval 0 (quoted (listOf xs))) (enter s 0 Option.none) [listOf xs] (enter s 0 Option.none) 1 :=
    .quote rfl (h.entered.noMacro _ (by simp))
  obtain ⟨s', hb⟩ := body_deep hP xs (withCall s (listOf xs)) (h.call _) s.frames.length (near_self _)
  have := deep_call h (.inl rfl) hq hb
  have hk : max 1 (xs.length + 3) + 1 = xs.length + 4 := by omega
  rw [hk] at this
  exact ⟨s', this, fun r s'' k hd => (this.det hd).2.2.symm⟩

/-- C119: and that is a run of the evaluator: the loop returns `done`. -/
theorem c119_runs (hP : LoopPrims P) (hW : HonestWorld W P) (s : St σ) (h : LoopState s) (hs : Scoped W s) (xs : List V)
    (hx : MentionsOnly (· < s.frames.length) (listOf xs)) :
    ∃ s', Evals P 0 (listOf [.sym "loop", quoted (listOf xs)]) s (.ok (.sym "done")) s' := by
  obtain ⟨s', hd, _⟩ := c119_linear hP s h xs
  obtain ⟨⟨v, hv, he⟩, _⟩ := deep_adequate hW hd hs hs.global (by
    intro y hy
    rw [List.mem_singleton.1 hy]
    simp only [listOf, quoted, mentions_pair]
    exact ⟨by simp [MentionsOnly, envsOf], ⟨by simp [MentionsOnly, envsOf], hx, by simp [MentionsOnly, envsOf]⟩, by simp [MentionsOnly, envsOf]⟩)
  cases hv
  exact ⟨s', he⟩

/-! Non-vacuity: builtins and a state with `loop` defined. -/

def loopDemo : Prims Unit where
  call := fun name args u =>
    match name, args with
    | "null?", [.nil] => .done (.ok (.bool true)) u
    | "null?", [_] => .done (.ok (.bool false)) u
    | "cdr", [.pair _ d] => .done (.ok d) u
    | _, _ => .done (.raise "wrong-type-arg" .nil) u
  init := fun _ => .num 0
  file := fun _ _ => .missing

def loopStart : St Unit :=
  { Demo.s0 with
    frames := [⟨[("null?", .func "null?" 1), ("cdr", .func "cdr" 1)], Option.none, Option.none⟩]
    mods := [⟨listOf [.sym "root"], [("loop", loopProc)], [], [], Option.none⟩] }

theorem loopDemo_ok : LoopPrims loopDemo := ⟨fun _ => rfl, fun _ _ _ => rfl, fun _ _ _ => rfl⟩

theorem loopStart_ok : LoopState loopStart := by
  refine ⟨?_, rfl, ⟨_, rfl, rfl, rfl, rfl, rfl, rfl⟩, rfl, ?_⟩
  · intro i f p hf hp
    match i with
    | 0 => cases hf; cases hp
    | i + 1 => cases hf
  · intro x _
    refine ⟨?_, ?_⟩
    · intro f hf v hv
      simp only [loopStart, List.mem_singleton] at hf
      subst hf
      simp only [List.mem_cons, Prod.mk.injEq, List.not_mem_nil, or_false] at hv
      rcases hv with ⟨_, rfl⟩ | ⟨_, rfl⟩ <;> rfl
    · intro m hm v hv
      simp only [loopStart, List.mem_singleton] at hm
      subst hm
      simp only [List.mem_singleton, Prod.mk.injEq] at hv
      rw [hv.2]; rfl

example : ∃ s', Deep loopDemo (.eval 0 (listOf [.sym "loop", quoted (listOf [.num 1, .num 2])])) loopStart [.sym "done"] s' 6 := by
  obtain ⟨s', h, _⟩ := c119_linear loopDemo_ok loopStart loopStart_ok [.num 1, .num 2]
  exact ⟨s', h⟩

theorem loopDemo_honest : HonestWorld (fun _ _ => True) loopDemo := by
  refine ⟨fun _ _ _ _ _ => trivial, ?_, fun D n => by simp [loopDemo, MentionsOnly, envsOf], fun f x xs h => by cases h⟩
  intro D n args x ha _
  simp only [loopDemo]
  split
  · exact ⟨trivial, by simp [MentionsOnly, envsOf]⟩
  · exact ⟨trivial, by simp [MentionsOnly, envsOf]⟩
  · exact ⟨trivial, (mentions_pair.1 (ha _ (List.mem_singleton_self _))).2⟩
  · exact ⟨trivial, by simp [MentionsOnly, envsOf]⟩

example : ∃ s', Evals loopDemo 0 (listOf [.sym "loop", quoted (listOf [.num 1, .num 2])]) loopStart (.ok (.sym "done")) s' := by
  refine c119_runs loopDemo_ok loopDemo_honest loopStart loopStart_ok ?_ [.num 1, .num 2] (by simp [listOf, MentionsOnly, envsOf])
  refine ⟨by decide, ?_, ?_, ?_, by simp [loopStart, Demo.s0], by simp [loopStart, Demo.s0], by simp [loopStart, Demo.s0], trivial⟩
  · intro f hf b hb
    simp only [loopStart, List.mem_singleton] at hf
    subst hf
    simp only [List.mem_cons, List.not_mem_nil, or_false] at hb
    rcases hb with rfl | rfl <;> simp [MentionsOnly, envsOf]
  · intro f hf p hp
    simp only [loopStart, List.mem_singleton] at hf
    subst hf
    cases hp
  · intro m hm b hb
    simp only [loopStart, List.mem_singleton] at hm
    subst hm
    simp only [List.mem_singleton] at hb
    subst hb
    intro e he
    have : e = 0 := by revert he; simp [loopProc, loopBody, quoted, envsOf, paramList, listOf]
    subst this
    decide

end Pscm
