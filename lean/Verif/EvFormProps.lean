import Verif.EvApply
import Verif.EvDemo
/-!
# C42-C44, C47, C50, C51: conditionals, sequencing, arity of builtins
-/
namespace Pscm
open Ev
variable {σ : Type}

theorem truthy_iff {v : V} : truthy v = true ↔ v ≠ .bool false := by
  cases v with
  | bool b => cases b <;> simp [truthy]
  | _ => simp [truthy]

theorem truthy_false {v : V} (h : ¬ truthy v = true) : v = .bool false := by
  cases v with
  | bool b => cases b <;> simp_all [truthy]
  | _ => simp [truthy] at h

/-! ## C42 -/

/-- C42: `(if c a b)` evaluates the condition and then exactly one branch. -/
theorem c42_if (P : Prims σ) (env : EnvId) (c a b : V) (s s' : St σ) (o : Out V) (hm : NoMacro s "if") :
    Evals P env (listOf [.sym "if", c, a, b]) s o s' ↔ IfRule (Evals P) env c a (some b) s o s' := by
  show Evals P env (.pair (.sym "if") (listOf [c, a, b])) s o s' ↔ _
  rw [evals_form (f := .if_) hm (by decide)]
  simp only [evalForm, nodes_listOf, evalIf, bind_eq_some]
  constructor
  · rintro (⟨v, s1, hc, h⟩ | ⟨e, hc, rfl⟩)
    · split at h
      · rename_i ht; exact .yes (evals_iff.2 hc) (truthy_iff.1 ht) (evals_iff.2 h)
      · rename_i ht; rw [truthy_false ht] at hc; exact .no (evals_iff.2 hc) (evals_iff.2 h)
    · exact .fail (evals_iff.2 hc)
  · intro h
    cases h with
    | yes hc hv h => exact .inl ⟨_, _, evals_iff.1 hc, by rw [if_pos (truthy_iff.2 hv)]; exact evals_iff.1 h⟩
    | no hc h => exact .inl ⟨_, _, evals_iff.1 hc, evals_iff.1 h⟩
    | fail hc => exact .inr ⟨_, evals_iff.1 hc, rfl⟩

/-- C42: without an else branch the result is unspecified (the "none" object). -/
theorem c42_if_no_else (P : Prims σ) (env : EnvId) (c a : V) (s s' : St σ) (o : Out V) (hm : NoMacro s "if") :
    Evals P env (listOf [.sym "if", c, a]) s o s' ↔ IfRule (Evals P) env c a Option.none s o s' := by
  show Evals P env (.pair (.sym "if") (listOf [c, a])) s o s' ↔ _
  rw [evals_form (f := .if_) hm (by decide)]
  simp only [evalForm, nodes_listOf, evalIf, bind_eq_some]
  constructor
  · rintro (⟨v, s1, hc, h⟩ | ⟨e, hc, rfl⟩)
    · split at h
      · rename_i ht; exact .yes (evals_iff.2 hc) (truthy_iff.1 ht) (evals_iff.2 h)
      · rename_i ht; rw [truthy_false ht] at hc; cases h; exact .unspecified (evals_iff.2 hc)
    · exact .fail (evals_iff.2 hc)
  · intro h
    cases h with
    | yes hc hv h => exact .inl ⟨_, _, evals_iff.1 hc, by rw [if_pos (truthy_iff.2 hv)]; exact evals_iff.1 h⟩
    | unspecified hc => exact .inl ⟨_, _, evals_iff.1 hc, rfl⟩
    | fail hc => exact .inr ⟨_, evals_iff.1 hc, rfl⟩

example : IfRule (Evals Demo.prims) 0 (.bool false) (.sym "unbound") (some (.num 2)) Demo.s0 (.ok (.num 2)) Demo.s0 :=
  .no ⟨1, rfl⟩ ⟨1, rfl⟩
example : NoMacro Demo.s0 "if" := Demo.noMacro_s0 _

/-! ## C43 -/

/-- C43: `and` stops at the first false operand. -/
theorem c43_and (P : Prims σ) (env : EnvId) (xs : List V) (s s' : St σ) (o : Out V) (hm : NoMacro s "and") :
    Evals P env (listOf (.sym "and" :: xs)) s o s' ↔ AndRule (Evals P) env xs s o s' := by
  show Evals P env (.pair (.sym "and") (listOf xs)) s o s' ↔ _
  rw [evals_form (f := .and) hm (by decide)]
  simp only [evalForm, nodes_listOf]
  clear hm
  induction xs generalizing s with
  | nil =>
    simp only [evalAnd, pure_apply, Option.some.injEq, Prod.mk.injEq]
    constructor
    · rintro ⟨rfl, rfl⟩; exact .nil
    · rintro ⟨⟩; exact ⟨rfl, rfl⟩
  | cons x xs ih =>
    cases xs with
    | nil =>
      simp only [evalAnd]
      constructor
      · intro h; exact .last (evals_iff.2 h)
      · intro h
        cases h with
        | last h => exact evals_iff.1 h
    | cons y ys =>
      simp only [evalAnd, bind_eq_some]
      constructor
      · rintro (⟨v, s1, hx, h⟩ | ⟨e, hx, rfl⟩)
        · split at h
          · rename_i ht; exact .next (evals_iff.2 hx) (truthy_iff.1 ht) ((ih s1).1 h)
          · rename_i ht; rw [truthy_false ht] at hx; cases h; exact .short (evals_iff.2 hx)
        · exact .fail (evals_iff.2 hx)
      · intro h
        cases h with
        | short h => exact .inl ⟨_, _, evals_iff.1 h, rfl⟩
        | next h hv k => exact .inl ⟨_, _, evals_iff.1 h, by rw [if_pos (truthy_iff.2 hv)]; exact (ih _).2 k⟩
        | fail h => exact .inr ⟨_, evals_iff.1 h, rfl⟩

/-- C43: `or` stops at the first true operand and returns its value. -/
theorem c43_or (P : Prims σ) (env : EnvId) (xs : List V) (s s' : St σ) (o : Out V) (hm : NoMacro s "or") :
    Evals P env (listOf (.sym "or" :: xs)) s o s' ↔ OrRule (Evals P) env xs s o s' := by
  show Evals P env (.pair (.sym "or") (listOf xs)) s o s' ↔ _
  rw [evals_form (f := .or) hm (by decide)]
  simp only [evalForm, nodes_listOf]
  clear hm
  induction xs generalizing s with
  | nil =>
    simp only [evalOr, pure_apply, Option.some.injEq, Prod.mk.injEq]
    constructor
    · rintro ⟨rfl, rfl⟩; exact .nil
    · rintro ⟨⟩; exact ⟨rfl, rfl⟩
  | cons x xs ih =>
    cases xs with
    | nil =>
      simp only [evalOr]
      constructor
      · intro h; exact .last (evals_iff.2 h)
      · intro h
        cases h with
        | last h => exact evals_iff.1 h
    | cons y ys =>
      simp only [evalOr, bind_eq_some]
      constructor
      · rintro (⟨v, s1, hx, h⟩ | ⟨e, hx, rfl⟩)
        · split at h
          · rename_i ht; cases h; exact .short (evals_iff.2 hx) (truthy_iff.1 ht)
          · rename_i ht; rw [truthy_false ht] at hx; exact .next (evals_iff.2 hx) ((ih s1).1 h)
        · exact .fail (evals_iff.2 hx)
      · intro h
        cases h with
        | short h hv => exact .inl ⟨_, _, evals_iff.1 h, by rw [if_pos (truthy_iff.2 hv)]; rfl⟩
        | next h k => exact .inl ⟨_, _, evals_iff.1 h, (ih _).2 k⟩
        | fail h => exact .inr ⟨_, evals_iff.1 h, rfl⟩

example : AndRule (Evals Demo.prims) 0 [.num 1, .bool false, .sym "unbound"] Demo.s0 (.ok (.bool false)) Demo.s0 :=
  .next ⟨1, rfl⟩ (by decide) (.short ⟨1, rfl⟩)
example : OrRule (Evals Demo.prims) 0 [.bool false, .num 2, .sym "unbound"] Demo.s0 (.ok (.num 2)) Demo.s0 :=
  .next ⟨1, rfl⟩ (.short ⟨1, rfl⟩ (by decide))

/-! ## C44 -/

/-- C44: `begin` evaluates its expressions in order and returns the value of the last. -/
theorem c44_begin (P : Prims σ) (env : EnvId) (x : V) (xs : List V) (s s' : St σ) (o : Out V) (hm : NoMacro s "begin") :
    Evals P env (listOf (.sym "begin" :: x :: xs)) s o s' ↔ SeqEval (Evals P) env (x :: xs) s o s' := by
  show Evals P env (.pair (.sym "begin") (listOf (x :: xs))) s o s' ↔ _
  rw [evals_form (f := .begin) hm (by decide)]
  simp only [evalForm, nodes_listOf, evalBegin]
  exact evalSeq_iff

/-- C44 for bodies: a closure's body runs in order in the frame of the call (`Applies` is stated with the same rule); splitting a
body anywhere, the effects are those of the first part followed by the second. -/
theorem c44_compose (P : Prims σ) (env : EnvId) (x y : V) (xs ys : List V) (s s' : St σ) (v : V) :
    SeqEval (Evals P) env (x :: xs ++ y :: ys) s (.ok v) s' ↔
      ∃ w s1, SeqEval (Evals P) env (x :: xs) s (.ok w) s1 ∧ SeqEval (Evals P) env (y :: ys) s1 (.ok v) s' := by
  induction xs generalizing x s with
  | nil =>
    constructor
    · intro h
      cases h with
      | next h k => exact ⟨_, _, .last h, k⟩
    · rintro ⟨w, s1, h, k⟩
      cases h with
      | last h => exact .next h k
  | cons z zs ih =>
    constructor
    · intro h
      cases h with
      | next h k =>
        obtain ⟨w, s1, h1, h2⟩ := (ih _ _).1 k
        exact ⟨w, s1, .next h h1, h2⟩
    · rintro ⟨w, s1, h, k⟩
      cases h with
      | next h h' => exact .next h ((ih _ _).2 ⟨w, s1, h', k⟩)

example : SeqEval (Evals Demo.prims) 1 [Demo.l [Demo.y "set!", Demo.y "x", Demo.n 5], Demo.y "x"] (Demo.inFrame [("x", .num 1)])
    (.ok (.num 5)) (Demo.inFrame [("x", .num 5)]) := .next ⟨2, rfl⟩ (.last ⟨1, rfl⟩)

/-! ## C47 -/

/-- C47: a builtin of fixed arity called with another number of arguments raises a wrong-number-of-args error in the state after
the evaluation of the arguments: it is not entered (nothing about the builtin's behaviour appears in the outcome). -/
theorem c47_arity (P : Prims σ) (env : EnvId) (name : Name) (a : Int) (xs vs : List V) (s s1 : St σ)
    (hn : name ∉ ["apply", "map", "map-in-order", "call/cc", "call-with-current-continuation"])
    (ha : 0 ≤ a ∧ a ≤ 3) (hx : ArgsEval (Evals P) env xs s (.ok vs) s1) (hl : (vs.length : Int) ≠ a) :
    Evals P env (.pair (.func name a) (listOf xs)) s
      (.stop (throwStop s1 "wrong-number-of-args"
        (listOf [.bool false, .str "Wrong number of arguments to ~A", .func name a, .bool false]))) s1 := by
  rw [evals_step]
  show evalFuncCall P (run P) env name a (listOf xs) s = _
  simp only [List.mem_cons, not_or, List.not_mem_nil, not_false_eq_true, and_true] at hn
  obtain ⟨h1, h2, h3, h4, h5⟩ := hn
  simp only [evalFuncCall, isCallCC, h1, h2, h3, h4, h5, nodes_listOf]
  simp only [or_self, decide_false, Bool.or_self, Bool.false_eq_true, if_false, bind_apply, evalArgs_iff.2 hx, callFunc]
  rw [if_pos (by omega), if_neg hl]
  rfl

example : ArgsEval (Evals Demo.prims) 0 [Demo.n 1, Demo.n 2] Demo.s0 (.ok [.num 1, .num 2]) Demo.s0 ∧
    (([.num 1, .num 2] : List V).length : Int) ≠ 1 := ⟨.cons ⟨1, rfl⟩ (.cons ⟨1, rfl⟩ .nil), by decide⟩

/-- C47, the other side: with the right number of arguments the builtin is entered, once. -/
theorem c47_enter (P : Prims σ) (env : EnvId) (name : Name) (xs vs : List V) (s s1 s' : St σ) (o : Out V)
    (hn : name ∉ interpreterNames) (h3 : vs.length ≤ 3) (hx : ArgsEval (Evals P) env xs s (.ok vs) s1)
    (hp : Runs (Evals P) (P.call name vs s1.ext) s1 o s') :
    Evals P env (.pair (.func name vs.length) (listOf xs)) s o s' := by
  rw [evals_step]
  show evalFuncCall P (run P) env name _ (listOf xs) s = _
  have hn' := hn
  simp only [interpreterNames, List.mem_cons, not_or, List.not_mem_nil, not_false_eq_true, and_true] at hn'
  obtain ⟨_, _, _, _, _, _, _, _, _, _, h11, h12, h13, h14, h15, _, _, _, _, _, _, _, _, _, _⟩ := hn'
  simp only [evalFuncCall, isCallCC, h11, h12, h13, h14, h15, nodes_listOf]
  simp only [or_self, decide_false, Bool.or_self, Bool.false_eq_true, if_false, bind_apply, evalArgs_iff.2 hx]
  rw [callFunc_ext hn (.inl ⟨rfl, h3⟩)]
  exact extPrim_of hp

/-! ## C50 -/

/-- C50 for `cond` without test-only clauses: the first clause with a true test (or `else`) is the only one evaluated; `=>` calls the
receiver on the test value (`=>` must not be a local variable and `quote` not a macro at that moment). -/
theorem c50_cond_partial (P : Prims σ) (env : EnvId) (c : Clause) (cs : List Clause) (s s' : St σ) (o : Out V)
    (hm : NoMacro s "cond") (he : env < s.frames.length)
    (hp : ∀ c' ∈ c :: cs, c'.Proper) (ho : ∀ c' ∈ c :: cs, ∀ t, c' ≠ .only t)
    (h : CondRule (Evals P) (fun f vs s o s' => Applies P f vs s o s' ∧ NoMacro s "quote")
      (fun s => ∀ v, ¬ Binds s.frames "=>" env env v) env (c :: cs) s o s') :
    Evals P env (listOf (.sym "cond" :: (c :: cs).map Clause.toV)) s o s' := by
  show Evals P env (.pair (.sym "cond") (listOf ((c :: cs).map Clause.toV))) s o s'
  rw [evals_form (f := .cond) hm (by decide)]
  have hne : listOf ((c :: cs).map Clause.toV) ≠ .nil := by simp [listOf]
  simp only [evalForm, if_neg hne, nodes_listOf]
  clear hm hne
  generalize c :: cs = cl at *
  have elseNe : ∀ {t : V}, t ≠ .sym "else" → ¬ t = .sym "else" := fun h => h
  induction h with
  | noClause => rfl
  | els h => simp only [List.map_cons, Clause.toV, listOf, evalCond, if_true]; exact seq_nodes h
  | @test t b bs cs s v s1 o s' ht hv h =>
    have hpr := hp _ List.mem_cons_self
    simp only [Clause.Proper] at hpr
    simp only [List.map_cons, Clause.toV, listOf, evalCond, if_neg hpr.1, bind_apply, evals_iff.1 ht, truthy_iff.2 hv, if_true,
      uncons, if_neg hpr.2]
    exact seq_nodes (body := b :: bs) h
  | @only t => exact absurd rfl (ho _ List.mem_cons_self t)
  | @arrow t fe cs s v s1 f s2 o s' ht hv hlit hf hA =>
    have hpr := hp _ List.mem_cons_self
    simp only [Clause.Proper] at hpr
    have hl : (lookOwn s1.frames env "=>").isNone = true := by
      cases hlo : lookOwn s1.frames env "=>" with
      | none => rfl
      | some w =>
        exfalso
        unfold lookOwn at hlo
        split at hlo
        · rename_i g hg; exact hlit w (.here hg (by rw [lookup_eq_findEntry]; exact hlo))
        · cases hlo
    have he2 : env < s2.frames.length := by
      obtain ⟨f0, hf0⟩ : ∃ f0, s.frames[env]? = some f0 := ⟨s.frames[env], List.getElem?_eq_getElem he⟩
      obtain ⟨f1, hf1, _⟩ := (run_ext (evals_iff.1 ht)).frames env f0 hf0
      obtain ⟨f2, hf2, _⟩ := (run_ext (evals_iff.1 hf)).frames env f1 hf1
      exact (List.getElem?_eq_some_iff.1 hf2).1
    have hcall := hA.1.call (hA.2.quoteOk env) he2
    simp only [List.map_cons, Clause.toV, listOf, evalCond, if_neg hpr, bind_apply, evals_iff.1 ht, truthy_iff.2 hv, if_true,
      uncons, getSt_apply, hl, condArrow, evals_iff.1 hf]
    have happ := hA.1.applicable
    cases f <;> first | exact evals_iff.1 hcall | cases happ
  | @arrowFail t fe cs s v s1 e s' ht hv hlit hf =>
    have hpr := hp _ List.mem_cons_self
    simp only [Clause.Proper] at hpr
    have hl : (lookOwn s1.frames env "=>").isNone = true := by
      cases hlo : lookOwn s1.frames env "=>" with
      | none => rfl
      | some w =>
        exfalso
        unfold lookOwn at hlo
        split at hlo
        · rename_i g hg; exact hlit w (.here hg (by rw [lookup_eq_findEntry]; exact hlo))
        · cases hlo
    simp only [List.map_cons, Clause.toV, listOf, evalCond, if_neg hpr, bind_apply, evals_iff.1 ht, truthy_iff.2 hv, if_true,
      uncons, getSt_apply, hl, condArrow, evals_iff.1 hf]
  | @skip c t cs s s1 o s' hc ht h ih =>
    have hpr := hp _ List.mem_cons_self
    have he1 : env < s1.frames.length := by
      obtain ⟨f0, hf0⟩ : ∃ f0, s.frames[env]? = some f0 := ⟨s.frames[env], List.getElem?_eq_getElem he⟩
      obtain ⟨f1, hf1, _⟩ := (run_ext (evals_iff.1 ht)).frames env f0 hf0
      exact (List.getElem?_eq_some_iff.1 hf1).1
    have ih' := ih he1 (fun c' h' => hp c' (List.mem_cons_of_mem _ h')) (fun c' h' => ho c' (List.mem_cons_of_mem _ h'))
    cases c with
    | els => cases hc
    | only t' => exact absurd rfl (ho _ List.mem_cons_self t')
    | test t' b bs =>
      simp only [Clause.Proper] at hpr
      subst hc
      simp only [List.map_cons, Clause.toV, listOf, evalCond, if_neg hpr.1, bind_apply, evals_iff.1 ht, truthy, if_false,
        Bool.false_eq_true]
      exact ih'
    | arrow t' fe =>
      simp only [Clause.Proper] at hpr
      subst hc
      simp only [List.map_cons, Clause.toV, listOf, evalCond, if_neg hpr, bind_apply, evals_iff.1 ht, truthy, if_false,
        Bool.false_eq_true]
      exact ih'
  | @fail c t cs s e s' hc ht =>
    have hpr := hp _ List.mem_cons_self
    cases c with
    | els => cases hc
    | only t' => exact absurd rfl (ho _ List.mem_cons_self t')
    | test t' b bs =>
      simp only [Clause.Proper] at hpr
      subst hc
      simp only [List.map_cons, Clause.toV, listOf, evalCond, if_neg hpr.1, bind_apply, evals_iff.1 ht]
    | arrow t' fe =>
      simp only [Clause.Proper] at hpr
      subst hc
      simp only [List.map_cons, Clause.toV, listOf, evalCond, if_neg hpr, bind_apply, evals_iff.1 ht]

/-- `(cond (#f unbound) (1 => (lambda (x) x)))` -/
def c50Clauses : List Clause :=
  [.test (.bool false) (.sym "unbound") [], .arrow (.num 1) (Demo.l [Demo.y "lambda", Demo.l [Demo.y "x"], Demo.y "x"])]

example : (∀ c' ∈ c50Clauses, c'.Proper) ∧ (∀ c' ∈ c50Clauses, ∀ t, c' ≠ .only t) ∧
    ∃ s', CondRule (Evals Demo.prims) (fun f vs s o s' => Applies Demo.prims f vs s o s' ∧ NoMacro s "quote")
      (fun s => ∀ v, ¬ Binds s.frames "=>" 0 0 v) 0 c50Clauses Demo.s0 (.ok (.num 1)) s' := by
  refine ⟨?_, ?_, _, .skip (t := .bool false) rfl ⟨1, rfl⟩ (.arrow ⟨1, rfl⟩ (by decide) ?_
    (f := .proc (paramList ["x"] Option.none) (listOf [.sym "x"]) 0) (s2 := Demo.s0) ⟨2, rfl⟩
    ⟨.closure (by decide) rfl rfl (.last ⟨1, rfl⟩), Demo.noMacro_s0 _⟩)⟩
  · intro c' h; simp only [c50Clauses, List.mem_cons, List.not_mem_nil, or_false] at h
    rcases h with rfl | rfl <;> simp [Clause.Proper]
  · intro c' h t; simp only [c50Clauses, List.mem_cons, List.not_mem_nil, or_false] at h
    rcases h with rfl | rfl <;> simp
  · intro v h; obtain ⟨f, hf, hv⟩ := h.at; cases hf; cases hv

/-- C50 is FALSE for a clause that consists of a test only: the result is `#t`, not the value of the test. -/
theorem c50_counterexample :
    Evals Demo.prims 0 (Demo.l [Demo.y "cond", Demo.l [Demo.n 5]]) Demo.s0 (.ok (.bool true)) Demo.s0 ∧
    CondRule (Evals Demo.prims) (fun f vs s o s' => Applies Demo.prims f vs s o s') (fun _ => True) 0 [.only (.num 5)]
      Demo.s0 (.ok (.num 5)) Demo.s0 :=
  ⟨⟨2, rfl⟩, .only ⟨1, rfl⟩ (by decide)⟩

/-! ## C51 -/

theorem legacyEq_atomic {k d : V} (hk : Atomic k) (hd : Atomic d) :
    legacyEq k d = if k = d then .yes else .no := by
  cases k <;> cases hk <;> cases d <;> cases hd <;> simp [legacyEq]

theorem inDatums_atomic {k : V} (hk : Atomic k) (ds : List V) (hd : ∀ d ∈ ds, Atomic d) :
    inDatums k ds = if k ∈ ds then .yes else .no := by
  induction ds with
  | nil => rfl
  | cons d ds ih =>
    simp only [inDatums, legacyEq_atomic hk (hd d List.mem_cons_self),
      ih fun x hx => hd x (List.mem_cons_of_mem _ hx), List.mem_cons]
    by_cases h : k = d <;> simp [h]

theorem isList_listOf (xs : List V) : isList (listOf xs) = true := by cases xs <;> rfl

/-- C51, when the key and the data are numbers, characters, symbols, booleans or `()`: the key is evaluated once, and the first clause
that lists it (or `else`) is the only one evaluated; without one the result is `#f`. -/
theorem c51_case_partial (P : Prims σ) (env : EnvId) (k key : V) (cs : List CaseClause) (s s1 s' : St σ) (o : Out V)
    (hm : NoMacro s "case") (hk : Evals P env k s (.ok key) s1) (ha : Atomic key)
    (hd : ∀ c ∈ cs, ∀ ds b bs, c = .data ds b bs → ∀ d ∈ ds, Atomic d)  :
    Evals P env (listOf (.sym "case" :: k :: cs.map CaseClause.toV)) s o s' ↔ CaseRule (Evals P) env key cs s1 o s' := by
  show Evals P env (.pair (.sym "case") (listOf (k :: cs.map CaseClause.toV))) s o s' ↔ _
  rw [evals_form (f := .case) hm (by decide)]
  simp only [evalForm, nodes_listOf, evalCase, bind_apply, evals_iff.1 hk]
  clear hm hk
  induction cs with
  | nil =>
    constructor
    · rintro ⟨⟩; exact .noClause
    · rintro ⟨⟩; rfl
  | cons c cs ih =>
    have ih' := ih fun c' h' => hd c' (List.mem_cons_of_mem _ h')
    cases c with
    | els b bs =>
      simp only [List.map_cons, CaseClause.toV, listOf, caseClauses, if_true]
      constructor
      · intro h
        have h' := h
        rw [show V.pair b (listOf bs) = listOf (b :: bs) from rfl, nodes_listOf] at h'
        exact .els (evalSeq_iff.1 h')
      · intro h
        cases h with
        | els h => exact seq_nodes (body := b :: bs) h
    | data ds b bs =>
      have hin := inDatums_atomic ha ds (hd _ List.mem_cons_self ds b bs rfl)
      have hne : ¬ listOf ds = .sym "else" := by cases ds <;> simp [listOf]
      simp only [List.map_cons, CaseClause.toV, caseClauses, if_neg hne, isList_listOf, if_true, nodes_listOf, hin]
      by_cases hmem : key ∈ ds
      · simp only [if_pos hmem]
        constructor
        · intro h
          exact .hit hmem (evalSeq_iff.1 h)
        · intro h
          cases h with
          | hit _ h => exact evalSeq_iff.2 h
          | miss hn _ => exact absurd hmem hn
      · simp only [if_neg hmem]
        rw [ih']
        constructor
        · intro h; exact .miss hmem h
        · intro h
          cases h with
          | hit hn _ => exact absurd hn hmem
          | miss _ h => exact h

/-- If evaluating the key does not return, neither does `case`: no clause is evaluated. -/
theorem c51_key_fails (P : Prims σ) (env : EnvId) (k : V) (cs : List CaseClause) (s s' : St σ) (e : Stop)
    (hm : NoMacro s "case") (hk : Evals P env k s (.stop e) s') :
    Evals P env (listOf (.sym "case" :: k :: cs.map CaseClause.toV)) s (.stop e) s' := by
  show Evals P env (.pair (.sym "case") (listOf (k :: cs.map CaseClause.toV))) s _ s'
  rw [evals_form (f := .case) hm (by decide)]
  simp only [evalForm, nodes_listOf, evalCase, bind_apply, evals_iff.1 hk]

example : CaseRule (Evals Demo.prims) 0 (.num 2) [.data [.num 1] (.sym "unbound") [], .data [.sym "a", .num 2] (.num 7) []]
    Demo.s0 (.ok (.num 7)) Demo.s0 := .miss (by decide) (.hit (by decide) (.last ⟨1, rfl⟩))

end Pscm
