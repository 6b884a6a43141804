import Verif.EvCall
import Verif.EvDemo
/-!
# C45, C46, C48, C86: procedure calls, binding forms, encapsulation of local variables
-/
namespace Pscm
open Ev
variable {σ : Type} {Q : σ → Prop} {P : Prims σ}

/-! ## C45 -/

/-- The expression `(f arg ...)` with the closure `(lambda (p ... . rest) body ...)` of environment `penv` as the value of `f`. -/
abbrev callExpr (ps : List Name) (rest : Option Name) (body : List V) (penv : EnvId) (args : List V) : V :=
  .pair (.proc (paramList ps rest) (listOf body) penv) (listOf args)

theorem call_apply {env : EnvId} {ps rest body penv args} {s s' : St σ} {o : Out V} :
    Evals P env (callExpr ps rest body penv args) s o s' ↔
      applyProc (run P) env (paramList ps rest) (listOf body) penv args s = some (o, s') := by
  rw [evals_step]
  show applyProc (run P) env _ _ penv (nodes (listOf args)) s = _ ↔ _
  rw [nodes_listOf]

/-- C45: the arguments are evaluated from left to right in the environment of the call; the body is evaluated in a new frame below the
captured environment in which parameter `i` is bound to argument `i` and the rest parameter to the list of the others. -/
theorem c45_call {env penv : EnvId} {ps : List Name} {rest : Option Name} {body args vs : List V} {f : Frame} {s s1 s' : St σ} {o : Out V}
    (hP : Honest Q (others s.frames.length) P) (hu : Unreferenced Q s.frames.length s) (hf : s.frames[penv]? = some f)
    (he : env < s.frames.length) (ha : CleanL (others s.frames.length) args) (hb : body ≠ [])
    (hnd : (ps ++ rest.toList).Nodup) (hcnt : CountOk ps rest args.length)
    (hv : ArgsEval (Evals P) env args (enter s penv f.modl) (.ok vs) s1) :
    Evals P env (callExpr ps rest body penv args) s o s' ↔
      SeqEval (Evals P) s.frames.length body (withEntries s1 s.frames.length (callBindings ps rest vs)) o s' := by
  have hp : penv < s.frames.length := (List.getElem?_eq_some_iff.1 hf).1
  rw [call_apply, applyProc_enter hf, bind_apply, splitParams_paramList]
  have hc := hu.enter (md := f.modl) hp
  have := bindParams_ok hP hu.pos (by omega) ps rest args [] _ s1 vs hc ha ⟨⟨[], some penv, f.modl⟩, by simp [enter]⟩ hnd (by simp) hcnt
    (evalArgs_iff.2 hv)
  rw [enter_repl] at this
  rw [this]
  simp only [List.append_nil, nodes_listOf, withEntries_eq]
  cases body with
  | nil => exact absurd rfl hb
  | cons x xs => exact evalSeq_iff

/-- C45: when the evaluation of the arguments does not return, neither does the call: same outcome, and the state differs at most in the
variables of the abandoned frame, which nothing refers to. -/
theorem c45_call_stop {env penv : EnvId} {ps : List Name} {rest : Option Name} {body args : List V} {f : Frame} {s s1 : St σ} {e : Stop}
    (hP : Honest Q (others s.frames.length) P) (hu : Unreferenced Q s.frames.length s) (hf : s.frames[penv]? = some f)
    (he : env < s.frames.length) (ha : CleanL (others s.frames.length) args)
    (hnd : (ps ++ rest.toList).Nodup) (hcnt : CountOk ps rest args.length)
    (hv : ArgsEval (Evals P) env args (enter s penv f.modl) (.stop e) s1) :
    ∃ es, Evals P env (callExpr ps rest body penv args) s (.stop e) (withEntries s1 s.frames.length es) := by
  have hp : penv < s.frames.length := (List.getElem?_eq_some_iff.1 hf).1
  have hc := hu.enter (md := f.modl) hp
  obtain ⟨es, h⟩ := bindParams_stop hP hu.pos (by omega) ps rest args [] _ s1 e hc ha ⟨⟨[], some penv, f.modl⟩, by simp [enter]⟩ hnd
    (by simp) hcnt (evalArgs_iff.2 hv)
  refine ⟨es, ?_⟩
  rw [call_apply, applyProc_enter hf, bind_apply, splitParams_paramList]
  rw [enter_repl] at h
  rw [h, withEntries_eq]

/-- C45: a call that ends has evaluated its arguments. -/
theorem c45_call_terminates {env penv : EnvId} {ps : List Name} {rest : Option Name} {body args : List V} {f : Frame} {s s' : St σ}
    {o : Out V} (hP : Honest Q (others s.frames.length) P) (hu : Unreferenced Q s.frames.length s) (hf : s.frames[penv]? = some f)
    (he : env < s.frames.length) (ha : CleanL (others s.frames.length) args)
    (hnd : (ps ++ rest.toList).Nodup) (hcnt : CountOk ps rest args.length)
    (h : Evals P env (callExpr ps rest body penv args) s o s') :
    ∃ o1 s1, ArgsEval (Evals P) env args (enter s penv f.modl) o1 s1 := by
  have hp : penv < s.frames.length := (List.getElem?_eq_some_iff.1 hf).1
  have hc := hu.enter (md := f.modl) hp
  rw [call_apply, applyProc_enter hf, bind_apply, splitParams_paramList] at h
  cases hv : evalArgs (run P) env args (enter s penv f.modl) with
  | some q => exact ⟨q.1, q.2, evalArgs_iff.1 hv⟩
  | none =>
    have := bindParams_none hP hu.pos (by omega) ps rest args [] _ hc ha ⟨⟨[], some penv, f.modl⟩, by simp [enter]⟩ hnd (by simp) hcnt hv
    rw [enter_repl] at this
    rw [this] at h
    cases h

/-- C45: the operator is evaluated first when it is itself a form. -/
theorem c45_operator {env : EnvId} {h t rest : V} {s s' : St σ} {o : Out V} :
    Evals P env (.pair (.pair h t) rest) s o s' ↔
      (∃ f s1, Evals P env (.pair h t) s (.ok f) s1 ∧ Evals P env (.pair f rest) s1 o s') ∨
      (∃ e, Evals P env (.pair h t) s (.stop e) s' ∧ o = .stop e) := by
  rw [evals_step]
  show (run P (.eval env (.pair h t)) >>= fun f => run P (.eval env (.pair f rest))) s = _ ↔ _
  rw [bind_eq_some]
  simp only [← evals_iff]

/-! Non-vacuity: `(f (list 1) 2 3)` for `f = (lambda (a . r) r)` closed over the global environment. -/

theorem Demo.honest (n : Nat) : Honest (fun _ => True) (others n) Demo.prims where
  call := by
    intro nm args x ha _
    unfold Demo.prims
    dsimp only
    split
    · exact ⟨trivial, trivial⟩
    · exact ⟨trivial, ha _ (by simp), ha _ (by simp)⟩
    · exact ⟨trivial, (ha _ (List.mem_singleton_self _)).1⟩
    · exact ⟨trivial, clean_listOf.2 ha⟩
    · exact ⟨trivial, trivial⟩
    · exact ⟨trivial, trivial⟩
  file := fun _ _ _ _ hf => by cases hf
  init := fun _ => trivial

theorem Demo.unreferenced : Unreferenced (fun _ => True) 1 Demo.s0 where
  pos := by decide
  frames := by
    intro i f hf _
    match i with
    | 0 =>
      cases hf
      refine ⟨?_, fun p hp => by cases hp⟩
      intro p hp
      simp only [Demo.builtins, List.mem_cons, List.not_mem_nil, or_false] at hp
      rcases hp with rfl | rfl | rfl | rfl | rfl | rfl | rfl | rfl | rfl <;> trivial
    | i + 1 => cases hf
  mods := by
    intro m hm p hp
    simp only [Demo.s0, List.mem_singleton] at hm
    subst hm
    cases hp
  proms := fun p hp => by cases hp
  winds := fun p hp => by cases hp
  conts := fun p hp => by cases hp
  ext := trivial

/-- The hypotheses of `c45_call` hold together for `((lambda (a . r) r) (list 1) 2 3)`. -/
example : Evals Demo.prims 0 (callExpr ["a"] (some "r") [.sym "r"] 0 [listOf [.sym "list", .num 1], .num 2, .num 3]) Demo.s0
    (.ok (listOf [.num 2, .num 3]))
    (withEntries (enter Demo.s0 0 Option.none) 1 [("r", listOf [.num 2, .num 3]), ("a", listOf [.num 1])]) := by
  refine (c45_call (s := Demo.s0) (P := Demo.prims) (Q := fun _ => True) (f := ⟨Demo.builtins, Option.none, Option.none⟩) (s1 := enter Demo.s0 0 Option.none)
    (vs := [listOf [.num 1], .num 2, .num 3]) (Demo.honest 1) Demo.unreferenced rfl (by decide) ?_ (by simp) (by decide) (by simp [CountOk]) ?_).2 ?_
  · intro x hx
    simp only [List.mem_cons, List.not_mem_nil, or_false] at hx
    rcases hx with rfl | rfl | rfl <;> simp [listOf, Clean]
  · exact .cons ⟨3, rfl⟩ (.cons ⟨1, rfl⟩ (.cons ⟨1, rfl⟩ .nil))
  · exact .last ⟨1, rfl⟩

/-! ## C46 -/

/-- C46, for procedures without rest parameter: a call that returns had exactly as many arguments as there are parameters.
Missing: procedures with a rest parameter, for which it is false (`c46_counterexample`). -/
theorem c46_count_partial {env penv : EnvId} {ps : List Name} {body args : List V} {s s' : St σ} {v : V}
    (h : Evals P env (callExpr ps Option.none body penv args) s (.ok v) s') : args.length = ps.length := by
  rw [call_apply] at h
  unfold applyProc at h
  rw [bind_eq_some] at h
  rcases h with ⟨pe, s1, h1, h⟩ | ⟨e, _, hh⟩
  · rw [bind_eq_some] at h
    rcases h with ⟨u, s2, h2, h⟩ | ⟨e, _, hh⟩
    · rw [splitParams_paramList] at h2
      exact bindParams_count h2
    · cases hh
  · cases hh

/-- C46: with the wrong number of arguments whose evaluation succeeds, an error is raised. -/
theorem bindParams_wrong {rec : Rec σ} {env pe : EnvId} {ps : List Name} {args : List V} {s : St σ}
    (hn : args.length ≠ ps.length) (hq : ∀ a ∈ args, ∀ t : St σ, ∃ v, rec (.eval env a) t = some (.ok v, t)) :
    ∃ s', bindParams rec env pe (ps.map V.sym) Option.none args s =
      some (.stop (throwStop s' "error" (listOf [.str "Wrong number of arguments"])), s') := by
  induction ps generalizing args s with
  | nil =>
    cases args with
    | nil => simp at hn
    | cons a as => exact ⟨s, rfl⟩
  | cons p ps ih =>
    cases args with
    | nil => exact ⟨s, rfl⟩
    | cons a as =>
      obtain ⟨v, hv⟩ := hq a (by simp) s
      simp only [List.map_cons, bindParams, bind_apply, hv, bindOwn_apply]
      exact ih (by simpa using hn) fun a ha => hq a (List.mem_cons_of_mem _ ha)

/-- C46: a call of a procedure without rest parameter on the wrong number of constants raises an error (partial: constants as arguments,
so that nothing else can go wrong first). -/
theorem c46_error_partial {env penv : EnvId} {ps : List Name} {body : List V} {args : List Int} {f : Frame} {s : St σ}
    (hf : s.frames[penv]? = some f) (hn : args.length ≠ ps.length) :
    ∃ s', Evals P env (callExpr ps Option.none body penv (args.map V.num)) s
      (.stop (throwStop s' "error" (listOf [.str "Wrong number of arguments"]))) s' := by
  obtain ⟨s', h⟩ := bindParams_wrong (rec := run P) (env := env) (pe := s.frames.length) (ps := ps) (args := args.map V.num)
    (s := enter s penv f.modl) (by simpa using hn) (by
      intro a ha t
      obtain ⟨i, _, rfl⟩ := List.mem_map.1 ha
      exact ⟨.num i, by rw [run_eq]; rfl⟩)
  refine ⟨s', ?_⟩
  rw [call_apply, applyProc_enter hf, bind_apply, splitParams_paramList, h]

example : ∃ s', Evals Demo.prims 0 (callExpr ["a", "b"] Option.none [.sym "a"] 0 [.num 1]) Demo.s0
    (.stop (throwStop s' "error" (listOf [.str "Wrong number of arguments"]))) s' :=
  c46_error_partial (args := [1]) (f := ⟨Demo.builtins, Option.none, Option.none⟩) rfl (by decide)

/-- C46 is false with a rest parameter: `((lambda (a . r) 5))` returns 5, and `((lambda (a . r) a))` reports `a` as unbound. -/
theorem c46_counterexample :
    (∃ s', Evals Demo.prims 0 (callExpr ["a"] (some "r") [.num 5] 0 []) Demo.s0 (.ok (.num 5)) s') ∧
    (∃ s', Evals Demo.prims 0 (callExpr ["a"] (some "r") [.sym "a"] 0 []) Demo.s0
      (.stop (.err Option.none "error" (listOf [.str "symbol not found"]))) s') :=
  ⟨⟨_, 3, rfl⟩, ⟨_, 3, rfl⟩⟩

/-! ## C48 -/

/-- `((x e) ...)` -/
abbrev bindingList (bs : List (Name × V)) : V := listOf (bs.map fun b => listOf [.sym b.1, b.2])

theorem letBindings_bindingList (bs : List (Name × V)) :
    letBindings (bs.map fun b => listOf [.sym b.1, b.2]) = some (bs.map fun b => .sym b.1, bs.map Prod.snd) := by
  induction bs with
  | nil => rfl
  | cons b bs ih =>
    rw [List.map_cons]
    show (match letBindings (bs.map fun b => listOf [V.sym b.1, b.2]) with
      | some (xs, es) => some (V.sym b.1 :: xs, b.2 :: es)
      | Option.none => Option.none) = _
    rw [ih]
    rfl

/-- C48: `(let ((x e) ...) body ...)` evaluates exactly like `((lambda (x ...) body ...) e ...)`. -/
theorem c48_let {env : EnvId} {bs : List (Name × V)} {body : List V} {s s' : St σ} {o : Out V} (hm : NoMacro s "let") (hb : body ≠ []) :
    Evals P env (listOf (.sym "let" :: bindingList bs :: body)) s o s' ↔
      Evals P env (.pair (listOf (.sym "lambda" :: listOf (bs.map fun b => .sym b.1) :: body)) (listOf (bs.map Prod.snd))) s o s' := by
  show Evals P env (.pair (.sym "let") (.pair (bindingList bs) (listOf body))) s o s' ↔ _
  rw [evals_form (f := .let_) hm (by decide)]
  have hne : listOf body ≠ V.nil := by cases body <;> simp_all [listOf]
  have : (expandLet (.pair (bindingList bs) (listOf body)) : EM σ V) =
      pure (.pair (listOf (.sym "lambda" :: listOf (bs.map fun b => .sym b.1) :: body)) (listOf (bs.map Prod.snd))) := by
    cases bs with
    | nil => simp only [bindingList, List.map_nil, listOf, expandLet, if_neg hne]; rfl
    | cons b bs =>
      have h2 := letBindings_bindingList (b :: bs)
      have hn : bindingList (b :: bs) = .pair (listOf [.sym b.1, b.2]) (bindingList bs) := rfl
      have hn2 : nodes (.pair (listOf [.sym b.1, b.2]) (bindingList bs)) = (b :: bs).map fun b => listOf [.sym b.1, b.2] := by
        simp only [nodes, bindingList, nodes_listOf, List.map_cons]
      rw [hn]
      simp only [expandLet, if_neg hne]
      rw [hn2, h2]
      rfl
  simp only [evalForm, this, pure_bind', ← evals_iff]

/-- C48: `(let* () body ...)`. -/
theorem c48_let_star_nil {env : EnvId} {body : List V} {s s' : St σ} {o : Out V} (hm : NoMacro s "let*") (hb : body ≠ []) :
    Evals P env (listOf (.sym "let*" :: bindingList [] :: body)) s o s' ↔
      Evals P env (.pair (listOf (.sym "lambda" :: .nil :: body)) .nil) s o s' := by
  show Evals P env (.pair (.sym "let*") (.pair .nil (listOf body))) s o s' ↔ _
  rw [evals_form (f := .letStar) hm (by decide)]
  have hne : listOf body ≠ V.nil := by cases body <;> simp_all [listOf]
  simp only [evalForm, expandLetStar, if_neg hne, pure_bind', ← evals_iff]
  rfl

/-- C48: `(let* (b1 b2 ...) body ...)` is `(let (b1) (let* (b2 ...) body ...))`, with one binding `(let (b1) body ...)`. -/
theorem c48_let_star {env : EnvId} {b : Name × V} {bs : List (Name × V)} {body : List V} {s s' : St σ} {o : Out V} (hm : NoMacro s "let*")
    (hb : body ≠ []) :
    Evals P env (listOf (.sym "let*" :: bindingList (b :: bs) :: body)) s o s' ↔
      Evals P env (listOf (.sym "let" :: bindingList [b] ::
        if bs = [] then body else [listOf (.sym "let*" :: bindingList bs :: body)])) s o s' := by
  show Evals P env (.pair (.sym "let*") (.pair (bindingList (b :: bs)) (listOf body))) s o s' ↔ _
  rw [evals_form (f := .letStar) hm (by decide)]
  have hne : listOf body ≠ V.nil := by cases body <;> simp_all [listOf]
  cases bs with
  | nil =>
    simp only [evalForm, bindingList, List.map_cons, List.map_nil, listOf, expandLetStar, if_neg hne, pure_bind', if_true, ← evals_iff]
  | cons c bs =>
    simp only [evalForm, bindingList, List.map_cons, listOf, expandLetStar, if_neg hne, pure_bind', reduceCtorEq, if_false, ← evals_iff,
      List.map_nil]

/-- C48: `letrec` binds all variables to `#f`, then evaluates and assigns the initialisers in the new environment. -/
theorem c48_letrec {env : EnvId} {bs : List (Name × V)} {body : List V} {s s' : St σ} {o : Out V} (hm : NoMacro s "letrec") (hb : body ≠ [])
    (hbs : bs ≠ []) :
    Evals P env (listOf (.sym "letrec" :: bindingList bs :: body)) s o s' ↔
      Evals P env (listOf (.sym "let" :: bindingList (bs.map fun b => (b.1, .bool false)) ::
        (bs.map (fun b => listOf [.sym "set!", .sym b.1, b.2]) ++ body))) s o s' := by
  show Evals P env (.pair (.sym "letrec") (.pair (bindingList bs) (listOf body))) s o s' ↔ _
  rw [evals_form (f := .letrec) hm (by decide)]
  have hne : listOf body ≠ V.nil := by cases body <;> simp_all [listOf]
  have hparts : ∀ bs : List (Name × V), letrecParts (bs.map fun b => .sym b.1) (bs.map Prod.snd) =
      (bs.map fun b => listOf [.sym b.1, .bool false], bs.map fun b => listOf [.sym "set!", .sym b.1, b.2]) := by
    intro bs
    induction bs with
    | nil => rfl
    | cons b bs ih => simp only [List.map_cons, letrecParts, ih]
  cases bs with
  | nil => exact absurd rfl hbs
  | cons b bs =>
    have h2 := letBindings_bindingList (b :: bs)
    have h3 := hparts (b :: bs)
    have : (expandLetrec (.pair (bindingList (b :: bs)) (listOf body)) : EM σ V) = pure (listOf (.sym "let" ::
        bindingList ((b :: bs).map fun b => (b.1, .bool false)) ::
        ((b :: bs).map (fun b => listOf [.sym "set!", .sym b.1, b.2]) ++ body))) := by
      have hn : bindingList (b :: bs) = .pair (listOf [.sym b.1, b.2]) (bindingList bs) := rfl
      rw [hn]
      simp only [expandLetrec, if_neg hne]
      have hn2 : nodes (.pair (listOf [.sym b.1, b.2]) (bindingList bs)) = (b :: bs).map fun b => listOf [.sym b.1, b.2] := by
        simp only [nodes, bindingList, nodes_listOf, List.map_cons]
      rw [hn2, h2]
      simp only [h3, nodes_listOf, List.map_map, bindingList]
      rfl
    simp only [evalForm, this, pure_bind', ← evals_iff]

/-- C48: the meaning of `let`: the initialisers are evaluated from left to right *outside*, then the body with the variables bound. -/
theorem c48_let_meaning {env : EnvId} {bs : List (Name × V)} {body vs : List V} {f : Frame} {s s1 s' : St σ} {o : Out V}
    (hP : Honest Q (others s.frames.length) P) (hu : Unreferenced Q s.frames.length s) (hm : NoMacro s "let") (hm' : NoMacro s "lambda")
    (hf : s.frames[env]? = some f) (ha : CleanL (others s.frames.length) (bs.map Prod.snd)) (hb : body ≠ [])
    (hnd : (bs.map Prod.fst).Nodup) (hv : ArgsEval (Evals P) env (bs.map Prod.snd) (enter s env f.modl) (.ok vs) s1) :
    Evals P env (listOf (.sym "let" :: bindingList bs :: body)) s o s' ↔
      SeqEval (Evals P) s.frames.length body (withEntries s1 s.frames.length ((bs.map Prod.fst).zip vs).reverse) o s' := by
  have he : env < s.frames.length := (List.getElem?_eq_some_iff.1 hf).1
  have hne : listOf body ≠ V.nil := by cases body <;> simp_all [listOf]
  have hpl : listOf (bs.map fun b => V.sym b.1) = paramList (bs.map Prod.fst) Option.none := by
    clear hnd hv ha
    induction bs with
    | nil => rfl
    | cons b bs ih => simp [listOf, paramList, ih]
  have hlam : Evals P env (listOf (.sym "lambda" :: listOf (bs.map fun b => .sym b.1) :: body)) s
      (.ok (.proc (paramList (bs.map Prod.fst) Option.none) (listOf body) env)) s := by
    show Evals P env (.pair (.sym "lambda") (.pair (listOf (bs.map fun b => .sym b.1)) (listOf body))) s _ s
    rw [evals_form (f := .lambda) hm' (by decide)]
    have hmk : mkBody (listOf body) = listOf body := by cases body <;> simp_all [listOf, mkBody]
    simp only [evalForm, evalLambda, uncons, ← hpl]
    cases bs <;> simp only [List.map_nil, List.map_cons, listOf, hmk, pure_apply]
  rw [c48_let hm hb]
  rw [show (listOf (V.sym "lambda" :: listOf (bs.map fun b => V.sym b.1) :: body)) =
    .pair (.sym "lambda") (.pair (listOf (bs.map fun b => .sym b.1)) (listOf body)) from rfl]
  rw [c45_operator]
  have hcall := c45_call (o := o) (s' := s') (ps := bs.map Prod.fst) (rest := Option.none) hP hu hf he ha hb (by simpa using hnd)
    (by simp [CountOk]) hv
  simp only [callBindings, List.append_nil] at hcall
  rw [← hcall]
  constructor
  · rintro (⟨g, s2, h1, h2⟩ | ⟨e, h1, _⟩)
    · obtain ⟨h, h'⟩ := evals_det h1 hlam
      cases h; subst h'
      exact h2
    · obtain ⟨h, _⟩ := evals_det h1 hlam
      cases h
  · intro h
    exact .inl ⟨_, _, hlam, h⟩

/-- `(let ((a 1) (b (list 2))) b)`: the hypotheses hold together. -/
example : Evals Demo.prims 0 (listOf [.sym "let", bindingList [("a", .num 1), ("b", listOf [.sym "list", .num 2])], .sym "b"]) Demo.s0
    (.ok (listOf [.num 2])) (withEntries (enter Demo.s0 0 Option.none) 1 [("b", listOf [.num 2]), ("a", .num 1)]) := by
  refine (c48_let_meaning (s := Demo.s0) (P := Demo.prims) (Q := fun _ => True) (body := [.sym "b"]) (f := ⟨Demo.builtins, Option.none, Option.none⟩)
    (s1 := enter Demo.s0 0 Option.none) (vs := [.num 1, listOf [.num 2]]) (Demo.honest 1) Demo.unreferenced (Demo.noMacro_s0 _)
    (Demo.noMacro_s0 _) rfl ?_ (by simp) (by decide) ?_).2 ?_
  · intro x hx
    simp only [List.map_cons, List.map_nil, List.mem_cons, List.not_mem_nil, or_false] at hx
    rcases hx with rfl | rfl <;> simp [listOf, Clean]
  · exact .cons ⟨1, rfl⟩ (.cons ⟨3, rfl⟩ .nil)
  · exact .last ⟨1, rfl⟩

/-- `(letrec ((f (lambda () g)) (g 7)) (f))` sees the later binding. -/
example : ∃ s', Evals Demo.prims 0 (listOf [.sym "letrec", bindingList [("f", listOf [.sym "lambda", .nil, .sym "g"]), ("g", .num 7)],
    listOf [.sym "f"]]) Demo.s0 (.ok (.num 7)) s' := ⟨_, 7, rfl⟩

/-! ## C86 -/

/-- C86: local variables are encapsulated.  If nothing but the frame itself refers to environment `n`, then evaluating any expression that does
not mention it in any other environment gives the same outcome whatever the values of the variables of `n` are, leaves those variables as they
are, and hands out no reference to `n`. -/
theorem c86_encapsulation {n env : Nat} {x : V} {s s' : St σ} {o : Out V} (hP : Honest Q (others n) P) (hu : Unreferenced Q n s)
    (hn : n < s.frames.length) (he : env ≠ n) (hx : Clean (others n) x) (es : List (Name × V)) :
    (Evals P env x s o s' → Evals P env x (withEntries s n es) o (withEntries s' n es)) ∧
    (Evals P env x s o s' → Unreferenced Q n s' ∧ ∀ v, o = .ok v → Clean (others n) v) ∧
    (Evals P env x s o s' → (s'.frames[n]?).map Frame.entries = (s.frames[n]?).map Frame.entries) := by
  have hc : CleanSt Q (others n) s := ⟨hu.pos, hn, hu.frames, hu.mods, hu.proms, hu.winds, hu.conts, hu.ext⟩
  have k := hide_run (Q := Q) hP hu.pos (.eval env x) ⟨he, hx⟩
  have hid : Hid (others n) n := fun h => h rfl
  have main : ∀ es, Evals P env x s o s' → Evals P env x (withEntries s n es) o (withEntries s' n es) := by
    intro es h
    rw [evals_iff] at h ⊢
    rw [withEntries_eq, withEntries_eq, k.eqv (fun _ => trivial) n s es hid hc, h]
    rfl
  refine ⟨main es, ?_, ?_⟩
  · intro h
    obtain ⟨c, g⟩ := k.good _ _ _ trivial hc (evals_iff.1 h)
    refine ⟨⟨c.pos, c.frames, c.mods, c.proms, c.winds, c.conts, c.ext⟩, ?_⟩
    rintro v rfl
    exact g
  · intro h
    obtain ⟨f, hf⟩ := List.getElem?_eq_some_iff.2 ⟨hn, rfl⟩ |> fun h => (⟨_, h⟩ : ∃ f, s.frames[n]? = some f)
    have h2 := main f.entries h
    have hs : withEntries s n f.entries = s := by
      rw [withEntries_eq]
      unfold repl updFrame
      rw [hf]
      simp only
      congr 1
      obtain ⟨hlt, hh⟩ := List.getElem?_eq_some_iff.1 hf
      rw [← hh]
      exact List.set_getElem_self hlt
    rw [hs] at h2
    obtain ⟨_, h3⟩ := evals_det h h2
    rw [hf, h3, withEntries_eq]
    obtain ⟨f', hf'⟩ := run_frame (e := n) (evals_iff.1 h) ⟨f, hf⟩
    simp only [repl, getElem?_updFrame, hf', Option.map_some, if_true]

/-- The local frame 1 of `inFrame` with a secret: global code cannot reach it. -/
example : Unreferenced (fun _ : Unit => True) 1 (Demo.inFrame [("secret", .num 42)]) where
  pos := by decide
  frames := by
    intro i f hf hi
    match i with
    | 0 => exact Demo.unreferenced.frames 0 f hf hi
    | 1 => exact absurd rfl hi
    | i + 2 => cases hf
  mods := Demo.unreferenced.mods
  proms := fun p hp => by cases hp
  winds := fun p hp => by cases hp
  conts := fun p hp => by cases hp
  ext := trivial

end Pscm
