import Verif.EvCallProps
import Verif.EvEnvProps
/-!
# C49: named let
-/
namespace Pscm
open Ev
variable {σ : Type} {Q : σ → Prop} {P : Prims σ}

/-! ## Calls with arguments that do not change the state -/

theorem bindParams_pure {env n : Nat} (ps : List Name) (args vs : List V) (es : List (Name × V)) (s : St σ) (f : Frame)
    (hl : args.length = vs.length)
    (ha : ∀ (i : Nat) a v, args[i]? = some a → vs[i]? = some v → ∀ es, run P (.eval env a) (repl n es s) = some (.ok v, repl n es s))
    (hf : s.frames[n]? = some f) (hnd : ps.Nodup) (hdis : ∀ x ∈ ps, x ∉ es.map Prod.fst) (hcnt : args.length = ps.length) :
    bindParams (run P) env n (ps.map V.sym) Option.none args (repl n es s) = some (.ok (), repl n ((ps.zip vs).reverse ++ es) s) := by
  induction ps generalizing args vs es with
  | nil =>
    have : args = [] := by simpa using hcnt
    subst this
    rfl
  | cons p ps ih =>
    cases args with
    | nil => simp at hcnt
    | cons a as =>
      cases vs with
      | nil => simp at hl
      | cons v vs =>
        have hp := hdis p (by simp)
        rw [List.nodup_cons] at hnd
        simp only [List.map_cons, bindParams, bind_apply, ha 0 a v rfl rfl es, repl_bindOwn hf hp]
        rw [ih as vs ((p, v) :: es) (by simpa using hl) (fun i a v h1 h2 => ha (i + 1) a v h1 h2) hnd.2 ?_ (by simpa using hcnt)]
        · congr 3
          simp
        · intro x hx
          simp only [List.map_cons, List.mem_cons, not_or]
          refine ⟨?_, hdis x (List.mem_cons_of_mem _ hx)⟩
          rintro rfl
          exact hnd.1 hx

theorem applyProc_pure {env penv : Nat} {ps : List Name} {args vs : List V} {s : St σ} {f : Frame} {body : List V}
    (hl : args.length = vs.length)
    (ha : ∀ (i : Nat) a v, args[i]? = some a → vs[i]? = some v → ∀ es,
      run P (.eval env a) (repl s.frames.length es (enter s penv f.modl)) = some (.ok v, repl s.frames.length es (enter s penv f.modl)))
    (hf : s.frames[penv]? = some f) (hnd : ps.Nodup) (hcnt : args.length = ps.length) :
    applyProc (run P) env (paramList ps Option.none) (listOf body) penv args s =
      evalSeq (run P) s.frames.length body
        { s with frames := s.frames ++ [⟨(ps.zip vs).reverse, some penv, f.modl⟩] } := by
  rw [applyProc_enter hf, bind_apply, splitParams_paramList]
  have := bindParams_pure (P := P) ps args vs [] (enter s penv f.modl) ⟨[], some penv, f.modl⟩ hl ha (by simp [enter]) hnd (by simp) hcnt
  rw [enter_repl] at this
  rw [this]
  simp only [List.append_nil, nodes_listOf]
  congr 1
  simp [repl, enter, updFrame_push]

/-! ## The temporaries -/

theorem tempName_inj {i j : Nat} (h : tempName i = tempName j) : i = j := by
  unfold tempName at h
  rw [String.append_right_inj] at h
  have h1 : Nat.toDigits 10 i = Nat.toDigits 10 j := by
    have h' : i.repr = j.repr := h
    rw [Nat.repr_eq_ofList_toDigits, Nat.repr_eq_ofList_toDigits] at h'
    simpa using congrArg String.toList h'
  have := congrArg (fun l => Nat.ofDigitChars 10 l 0) h1
  simpa [Nat.ofDigitChars_toDigits] using this

theorem tempName_head (i : Nat) : (tempName i).toList.head? = some '_' := by
  unfold tempName
  rw [String.toList_append]
  rfl

/-- `__temp_0 ... ` -/
def temps (k : Nat) : List Name := (List.range k).map tempName

theorem temps_nodup (k : Nat) : (temps k).Nodup := by
  unfold temps
  rw [List.nodup_iff_pairwise_ne] 
  rw [List.pairwise_map]
  exact List.nodup_range.imp fun h hh => h (tempName_inj hh)

theorem tempBindings_eq (i : Nat) (es : List V) :
    tempBindings i es = (((List.range' i es.length).map tempName).zip es).map fun b => listOf [.sym b.1, b.2] := by
  induction es generalizing i with
  | nil => rfl
  | cons e es ih => simp [tempBindings, ih, List.range'_succ]

theorem tempSyms_eq (i : Nat) (es : List V) : tempSyms i es = (List.range' i es.length).map fun j => .sym (tempName j) := by
  induction es generalizing i with
  | nil => rfl
  | cons e es ih => simp [tempSyms, ih, List.range'_succ]

/-! ## The loop -/

theorem Ev.NoMacro.push {s : St σ} {x : Name} (h : NoMacro s x) {es : List (Name × V)} {p md} (hes : ∀ v, (x, v) ∈ es → isMacro v = false) :
    NoMacro { s with frames := s.frames ++ [⟨es, p, md⟩] } x := by
  refine ⟨?_, h.2⟩
  intro f hf v hv
  simp only [List.mem_append, List.mem_singleton] at hf
  rcases hf with hf | rfl
  · exact h.1 f hf v hv
  · exact hes v hv

theorem paramList_listOf (xs : List Name) : paramList xs Option.none = listOf (xs.map V.sym) := by
  induction xs with
  | nil => rfl
  | cons x xs ih => simp [paramList, listOf, ih]

theorem run_lambda {env : EnvId} {xs : List Name} {b : V} {bs : List V} {s : St σ} (hm : NoMacro s "lambda") :
    run P (.eval env (listOf (.sym "lambda" :: listOf (xs.map V.sym) :: b :: bs))) s =
      some (.ok (.proc (paramList xs Option.none) (listOf (b :: bs)) env), s) := by
  rw [← evals_iff]
  show Evals P env (.pair (.sym "lambda") (.pair (listOf (xs.map V.sym)) (listOf (b :: bs)))) s _ s
  rw [evals_form (f := .lambda) hm (by decide)]
  simp only [evalForm, evalLambda, uncons, paramList_listOf]
  cases xs <;> rfl

theorem letrec_loop {e : EnvId} {loop : Name} {xs : List Name} {b : V} {args vs : List V} {t s' : St σ} {o : Out V} {f : Frame}
    (hf : t.frames[e]? = some f) (h1 : NoMacro t "letrec") (h2 : NoMacro t "let") (h3 : NoMacro t "lambda") (h4 : NoMacro t "set!")
    (hloop : formOf loop = Option.none) (hnd : xs.Nodup) (hl : args.length = vs.length) (hl' : args.length = xs.length)
    (ha : ∀ (i : Nat) a v, args[i]? = some a → vs[i]? = some v → ∀ es,
      let r : St σ := { t with frames := t.frames ++ [⟨[(loop, .proc (paramList xs Option.none) (listOf [b]) t.frames.length)], some e, f.modl⟩,
        ⟨es, some t.frames.length, f.modl⟩] }
      run P (.eval t.frames.length a) r = some (.ok v, r)) :
    Evals P e (listOf [.sym "letrec", bindingList [(loop, listOf [.sym "lambda", listOf (xs.map V.sym), b])],
      .pair (.sym loop) (listOf args)]) t o s' ↔
    Evals P (t.frames.length + 1) b
      { t with frames := t.frames ++ [⟨[(loop, .proc (paramList xs Option.none) (listOf [b]) t.frames.length)], some e, f.modl⟩,
        ⟨(xs.zip vs).reverse, some t.frames.length, f.modl⟩] } o s' := by
  rw [c48_letrec (bs := [(loop, listOf [.sym "lambda", listOf (xs.map V.sym), b])]) (body := [.pair (.sym loop) (listOf args)]) h1
    (by simp) (by simp)]
  rw [List.map_cons, List.map_nil, c48_let h2 (by simp)]
  simp only [List.map_cons, List.map_nil, List.cons_append, List.nil_append]
  have hlam := run_lambda (P := P) (env := e) (xs := [loop]) (b := listOf [.sym "set!", .sym loop, listOf [.sym "lambda", listOf (xs.map V.sym), b]])
    (bs := [.pair (.sym loop) (listOf args)]) h3
  simp only [List.map_cons, List.map_nil] at hlam
  rw [evals_step]
  show ((run P (.eval e (listOf [V.sym "lambda", listOf [V.sym loop],
    listOf [.sym "set!", .sym loop, listOf [.sym "lambda", listOf (xs.map V.sym), b]], (.pair (.sym loop) (listOf args))]))) >>=
    fun g => run P (.eval e (.pair g (listOf [.bool false])))) t = _ ↔ _
  rw [bind_apply, hlam]
  simp only
  rw [run_eq]
  show applyProc (run P) e _ _ e (nodes (listOf [.bool false])) t = _ ↔ _
  rw [nodes_listOf, applyProc_pure (vs := [.bool false]) (f := f) rfl ?_ hf (by simp) rfl]
  rotate_left
  · intro i a v h1 h2 es
    match i with
    | 0 => cases h1; cases h2; rw [run_eq]; rfl
    | i + 1 => cases h1
  simp only [List.zip_cons_cons, List.zip_nil_right, List.reverse_cons, List.reverse_nil, List.nil_append]
  -- the assignment
  let t1 : St σ := { t with frames := t.frames ++ [⟨[(loop, .bool false)], some e, f.modl⟩] }
  let clo : V := .proc (paramList xs Option.none) (listOf [b]) t.frames.length
  let t2 : St σ := { t with frames := t.frames ++ [⟨[(loop, clo)], some e, f.modl⟩] }
  have hset : run P (.eval t.frames.length (listOf [.sym "set!", .sym loop, listOf [.sym "lambda", listOf (xs.map V.sym), b]])) t1 =
      some (.ok .none, t2) := by
    rw [← evals_iff]
    have h4' : NoMacro t1 "set!" := Ev.NoMacro.push h4 (by intro v hv; simp only [List.mem_singleton, Prod.mk.injEq] at hv; rw [hv.2]; rfl)
    have h3' : NoMacro t1 "lambda" := Ev.NoMacro.push h3 (by intro v hv; simp only [List.mem_singleton, Prod.mk.injEq] at hv; rw [hv.2]; rfl)
    show Evals P t.frames.length (.pair (.sym "set!") (listOf [.sym loop, listOf [.sym "lambda", listOf (xs.map V.sym), b]])) t1 _ t2
    rw [evals_form (f := .set) h4' (by decide)]
    simp only [evalForm, evalSet, listOf, uncons]
    have := run_lambda (P := P) (env := t.frames.length) (xs := xs) (b := b) (bs := []) h3'
    simp only [listOf] at this
    rw [bind_apply, this]
    simp only [modSt_bind, pure_apply]
    congr 2
    unfold assignSt
    have : findFrame t1.frames loop (t.frames.length + 1) t.frames.length = some t.frames.length := by
      simp [findFrame, t1, hasEntry, findEntry]
    rw [this]
    simp only [t1, t2, updFrame_push, clo, listOf]
    simp [setEntry]
  -- the call
  have hcall : run P (.eval t.frames.length (.pair (.sym loop) (listOf args))) t2 = run P (.eval (t.frames.length + 1) b)
      { t with frames := t.frames ++ [⟨[(loop, clo)], some e, f.modl⟩, ⟨(xs.zip vs).reverse, some t.frames.length, f.modl⟩] } := by
    rw [run_eq]
    show evalPair P (run P) t.frames.length (.sym loop) (listOf args) t2 = _
    simp only [evalPair, getSt_bind]
    have hop : opValue t2 t.frames.length loop = some clo := by
      unfold opValue lookOwn
      simp [t2, findEntry]
    rw [hop]
    simp only [clo, hloop, pure_bind']
    rw [run_eq]
    show applyProc (run P) t.frames.length _ _ t.frames.length (nodes (listOf args)) t2 = _
    have hlen : t2.frames.length = t.frames.length + 1 := by simp [t2]
    rw [nodes_listOf, applyProc_pure (vs := vs) (f := ⟨[(loop, clo)], some e, f.modl⟩) hl ?_ (by simp [t2]) hnd hl']
    · rw [hlen]
      simp only [evalSeq, t2, List.append_assoc, List.cons_append, List.nil_append]
      rfl
    · intro i a v h1 h2 es
      have := ha i a v h1 h2 es
      have hst : repl t2.frames.length es (enter t2 t.frames.length f.modl) =
          { t with frames := t.frames ++ [⟨[(loop, clo)], some e, f.modl⟩, ⟨es, some t.frames.length, f.modl⟩] } := by
        unfold repl enter
        simp only [updFrame_push]
        simp only [t2, List.append_assoc, List.cons_append, List.nil_append]
      rw [hst]
      exact this
  show (run P (.eval t.frames.length (listOf [.sym "set!", .sym loop, listOf [.sym "lambda", listOf (xs.map V.sym), b]])) >>= fun _ =>
    run P (.eval t.frames.length (.pair (.sym loop) (listOf args)))) t1 = _ ↔ _
  rw [bind_apply, hset]
  simp only
  rw [hcall, ← evals_iff]

/-- C49 for a loop without variables and with a single body expression: the body is evaluated in an environment where the loop name is
bound to the procedure that evaluates the body again. -/
theorem c49_loop_nil_partial {env : EnvId} {loop : Name} {b : V} {s s' : St σ} {o : Out V} {f : Frame}
    (hf : s.frames[env]? = some f) (hm : ∀ x ∈ ["let", "letrec", "lambda", "set!"], NoMacro s x) (hloop : formOf loop = Option.none) :
    Evals P env (listOf [.sym "let", .sym loop, bindingList [], b]) s o s' ↔
    Evals P (s.frames.length + 1) b
      { s with frames := s.frames ++ [⟨[(loop, .proc .nil (listOf [b]) s.frames.length)], some env, f.modl⟩,
        ⟨[], some s.frames.length, f.modl⟩] } o s' := by
  show Evals P env (.pair (.sym "let") (listOf [.sym loop, .nil, b])) s o s' ↔ _
  rw [evals_form (f := .let_) (hm _ (by simp)) (by decide)]
  simp only [evalForm, listOf, expandLet, pure_bind']
  rw [← evals_iff]
  exact letrec_loop (xs := []) (args := []) (vs := []) hf (hm _ (by simp)) (hm _ (by simp)) (hm _ (by simp)) (hm _ (by simp)) hloop
    (by simp) rfl rfl (fun i a v h => by simp at h)

theorem Ev.NoMacro.withEntries {s : St σ} {x : Name} (h : NoMacro s x) {es : List (Name × V)} {n} (hes : ∀ v, (x, v) ∈ es → isMacro v = false) :
    NoMacro (withEntries s n es) x := by
  refine ⟨?_, h.2⟩
  intro f hf v hv
  obtain ⟨i, hi⟩ := List.mem_iff_getElem?.1 hf
  simp only [Ev.withEntries, List.getElem?_modify] at hi
  cases hs : s.frames[i]? with
  | none => rw [hs] at hi; cases hi
  | some g =>
    rw [hs] at hi
    simp only [Option.map_eq_map, Option.map_some, Option.some.injEq] at hi
    by_cases hn : n = i
    · simp only [hn, if_true] at hi; subst hi; exact hes v hv
    · simp only [hn, if_false, id] at hi; subst hi; exact h.1 g (List.mem_of_getElem? hs) v hv

/-- C49 with loop variables: the initialisers are evaluated from left to right outside, then the body is evaluated with the variables bound to
their values, in an environment where the loop name is bound to the procedure of these variables and this body.
Missing: bodies of more than one expression, whose other expressions are dropped (`c49_counterexample`), and code that uses the names
`__temp_i` (`c49_capture`). -/
theorem c49_loop_partial {env : EnvId} {loop : Name} {bs : List (Name × V)} {b : V} {vs : List V} {s s1 s' : St σ} {o : Out V} {f : Frame}
    (hP : Honest Q (others s.frames.length) P) (hu : Unreferenced Q s.frames.length s) (wf : FramesWF s.frames)
    (hf : s.frames[env]? = some f) (hm : NoMacro s "let") (hml : NoMacro s "lambda")
    (hm1 : ∀ x ∈ ["let", "letrec", "lambda", "set!"], NoMacro s1 x) (hloop : formOf loop = Option.none)
    (hbs : bs ≠ []) (hnd : (bs.map Prod.fst).Nodup) (hlt : ∀ i, loop ≠ tempName i)
    (ha : CleanL (others s.frames.length) (bs.map Prod.snd))
    (hv : ArgsEval (Evals P) env (bs.map Prod.snd) (enter s env f.modl) (.ok vs) s1) :
    Evals P env (listOf [.sym "let", .sym loop, bindingList bs, b]) s o s' ↔
    Evals P (s1.frames.length + 1) b
      { s1 with frames := (withEntries s1 s.frames.length ((temps bs.length).zip vs).reverse).frames ++
        [⟨[(loop, .proc (listOf (bs.map fun b => .sym b.1)) (listOf [b]) s1.frames.length)], some s.frames.length, f.modl⟩,
         ⟨((bs.map Prod.fst).zip vs).reverse, some s1.frames.length, f.modl⟩] } o s' := by
  have hvl : vs.length = bs.length := by
    have : ∀ (xs : List V) (s s1 : St σ) (vs : List V), ArgsEval (Evals P) env xs s (.ok vs) s1 → vs.length = xs.length := by
      intro xs
      induction xs with
      | nil => intro s s1 vs h; cases h; rfl
      | cons x xs ih => intro s s1 vs h; cases h with | cons _ h => simp [ih _ _ _ h]
    simpa using this _ _ _ _ hv
  -- the expansion
  have hexp : (expandLet (listOf [.sym loop, bindingList bs, b]) : EM σ V) = pure (listOf [.sym "let",
      bindingList ((temps bs.length).zip (bs.map Prod.snd)),
      listOf [.sym "letrec", bindingList [(loop, listOf [.sym "lambda", listOf (bs.map fun b => .sym b.1), b])],
        .pair (.sym loop) (listOf ((temps bs.length).map V.sym))]]) := by
    have h2 := letBindings_bindingList bs
    cases bs with
    | nil => exact absurd rfl hbs
    | cons c bs =>
      have hn : bindingList (c :: bs) = .pair (listOf [.sym c.1, c.2]) (bindingList bs) := rfl
      have hn2 : nodes (.pair (listOf [.sym c.1, c.2]) (bindingList bs)) = (c :: bs).map fun b => listOf [.sym b.1, b.2] := by
        simp only [nodes, bindingList, nodes_listOf, List.map_cons]
      rw [hn]
      simp only [listOf, expandLet]
      simp only [listOf] at hn2 h2
      rw [hn2, h2]
      simp only [tempBindings_eq, tempSyms_eq, List.length_map, temps, List.range_eq_range', List.map_map, bindingList, listOf,
        List.map_cons, List.map_nil, List.length_cons, Function.comp_def]
  show Evals P env (.pair (.sym "let") (listOf [.sym loop, bindingList bs, b])) s o s' ↔ _
  rw [evals_form (f := .let_) hm (by decide)]
  simp only [evalForm, hexp, pure_bind']
  rw [← evals_iff]
  have hsnd : ((temps bs.length).zip (bs.map Prod.snd)).map Prod.snd = bs.map Prod.snd := by
    rw [List.map_snd_zip]; simp [temps]
  have hfst : ((temps bs.length).zip (bs.map Prod.snd)).map Prod.fst = temps bs.length := by
    rw [List.map_fst_zip]; simp [temps]
  rw [c48_let_meaning (Q := Q) (bs := (temps bs.length).zip (bs.map Prod.snd))
    (body := [listOf [.sym "letrec", bindingList [(loop, listOf [.sym "lambda", listOf (bs.map fun b => .sym b.1), b])],
        .pair (.sym loop) (listOf ((temps bs.length).map V.sym))]]) (vs := vs) (s1 := s1) hP hu hm hml hf (by rw [hsnd]; exact ha) (by simp)
    (by rw [hfst]; exact temps_nodup _) (by rw [hsnd]; exact hv)]
  rw [hfst]
  -- the frame of the temporaries
  have hargs := evalArgs_iff.2 hv
  have hext : Ext (enter s env f.modl) s1 := by
    have : ∀ (xs : List V) (s s1 : St σ) (o : Out (List V)), evalArgs (run P) env xs s = some (o, s1) → Ext s s1 := by
      intro xs
      induction xs with
      | nil => intro s s1 o h; cases h; exact Ext.of_eq rfl rfl
      | cons x xs ih =>
        intro s s1 o h
        simp only [evalArgs, bind_eq_some] at h
        rcases h with ⟨v, s2, h1, h⟩ | ⟨e', h1, rfl⟩
        · rcases h with ⟨vs, s3, h2, h⟩ | ⟨e', h2, rfl⟩
          · cases h; exact (extRel σ).trans _ _ _ (run_ext h1) (ih _ _ _ h2)
          · exact (extRel σ).trans _ _ _ (run_ext h1) (ih _ _ _ h2)
        · exact run_ext h1
    exact this _ _ _ _ hargs
  obtain ⟨f1, hf1, hpar, hmod, _⟩ := hext.frames s.frames.length ⟨[], some env, f.modl⟩ (by simp [enter])
  have hwfe : FramesWF (enter s env f.modl).frames := by
    intro i g p hg hp
    simp only [enter] at hg
    rw [List.getElem?_append] at hg
    split at hg
    · exact wf i g p hg hp
    · rename_i hlt
      have : i = s.frames.length := by
        rcases Nat.lt_or_ge i (s.frames.length + 1) with h | h
        · omega
        · rw [List.getElem?_eq_none] at hg
          · cases hg
          · simp; omega
      subst this
      simp at hg
      subst hg
      cases hp
      exact (List.getElem?_eq_some_iff.1 hf).1
  have hwf1 := hext.wf hwfe
  let es := ((temps bs.length).zip vs).reverse
  let t : St σ := withEntries s1 s.frames.length es
  have htl : t.frames.length = s1.frames.length := by simp [t, withEntries]
  have htf : t.frames[s.frames.length]? = some { f1 with entries := es } := by
    simp [t, withEntries, hf1]
  have htm : ∀ x ∈ ["let", "letrec", "lambda", "set!"], NoMacro t x := by
    intro x hx
    refine Ev.NoMacro.withEntries (hm1 x hx) ?_
    intro v hv
    exfalso
    have hv := List.of_mem_zip (List.mem_reverse.1 hv)
    obtain ⟨i, _, hi⟩ := List.mem_map.1 hv.1
    have hh := tempName_head i
    rw [hi] at hh
    simp only [List.mem_cons, List.not_mem_nil, or_false] at hx
    rcases hx with rfl | rfl | rfl | rfl <;> exact absurd hh (by decide)
  have hlt1 : s.frames.length < s1.frames.length := (List.getElem?_eq_some_iff.1 hf1).1
  have hmain := letrec_loop (P := P) (loop := loop) (b := b) (o := o) (s' := s') (t := t) (f := { f1 with entries := es })
    (xs := bs.map Prod.fst) (args := (temps bs.length).map V.sym) (vs := vs) htf (htm _ (by simp)) (htm _ (by simp)) (htm _ (by simp))
    (htm _ (by simp)) hloop hnd (by simp [temps, hvl]) (by simp [temps]) ?_
  · rw [htl] at hmain
    simp only [hmod] at hmain
    simp only [List.map_map, paramList_listOf] at hmain
    constructor
    · intro h
      cases h with
      | last h => exact hmain.1 h
    · intro h
      exact .last (hmain.2 h)
  · -- the temporaries evaluate to the values
    intro i a v ha hvi ees
    simp only
    have hi : i < bs.length := by
      have := (List.getElem?_eq_some_iff.1 hvi).1
      omega
    have ha' : a = .sym (tempName i) := by
      simp only [temps, List.map_map, List.getElem?_map, List.getElem?_range hi, Option.map_some, Option.some.injEq] at ha
      exact ha.symm
    subst ha'
    rw [← evals_iff]
    have hkw : isKeyword (tempName i) = false := by
      unfold isKeyword
      rw [tempName_head]
      rfl
    have hlook : es.lookup (tempName i) = some v := by
      have hlk : ∀ (ks : List Nat) (vs : List V) (j : Nat), ks.Nodup → ks[j]? = some i → vs[j]? = some v →
          ((ks.map tempName).zip vs).reverse.lookup (tempName i) = some v := by
        intro ks
        induction ks with
        | nil => intro vs j _ h; simp at h
        | cons k ks ih =>
          intro vs j hn hk hv
          cases vs with
          | nil => simp at hv
          | cons w vs =>
            simp only [List.map_cons, List.zip_cons_cons, List.reverse_cons]
            rw [List.lookup_append]
            rw [List.nodup_cons] at hn
            cases j with
            | zero =>
              simp only [List.getElem?_cons_zero, Option.some.injEq] at hk hv
              subst hk hv
              have : ((ks.map tempName).zip vs).reverse.lookup (tempName k) = Option.none := by
                rw [List.lookup_eq_none_iff]
                intro p hp
                have hp := (List.of_mem_zip (List.mem_reverse.1 hp)).1
                obtain ⟨j, hj, hjj⟩ := List.mem_map.1 hp
                rw [← hjj]
                simp only [bne_iff_ne, ne_eq]
                intro hh
                exact hn.1 (tempName_inj hh ▸ hj)
              rw [this]
              simp
            | succ j =>
              rw [ih vs j hn.2 hk hv]
              rfl
      exact hlk (List.range bs.length) vs i List.nodup_range (List.getElem?_range hi) hvi
    have hwf : FramesWF (t.frames ++ [(⟨[(loop, .proc (paramList (bs.map Prod.fst) Option.none) (listOf [b]) t.frames.length)],
        some s.frames.length, f1.modl⟩ : Frame), ⟨ees, some t.frames.length, f1.modl⟩]) := by
      intro j g p hg hp
      rw [List.getElem?_append] at hg
      split at hg
      · simp only [t, withEntries, List.getElem?_modify] at hg
        cases hj : s1.frames[j]? with
        | none => rw [hj] at hg; cases hg
        | some g0 =>
          rw [hj] at hg
          simp only [Option.map_eq_map, Option.map_some, Option.some.injEq] at hg
          refine hwf1 j g0 p hj ?_
          rw [← hp, ← hg]
          split <;> rfl
      · rename_i hj
        have hcase : j - t.frames.length = 0 ∨ j - t.frames.length = 1 ∨ 2 ≤ j - t.frames.length := by omega
        rcases hcase with h0 | h0 | h0
        · rw [h0] at hg; cases hg; cases hp; omega
        · rw [h0] at hg; cases hg; cases hp; omega
        · rw [List.getElem?_eq_none (by simpa using h0)] at hg; cases hg
    refine (c38_reference P t.frames.length (tempName i) _ hwf hkw).1 s.frames.length v ?_
    refine .up (f := ⟨[(loop, .proc (paramList (bs.map Prod.fst) Option.none) (listOf [b]) t.frames.length)],
        some s.frames.length, f1.modl⟩) (by simp) ?_ rfl ?_
    · have : (tempName i == loop) = false := by simpa using fun h => hlt i h.symm
      simp [List.lookup, this]
    · refine .here (f := { f1 with entries := es }) ?_ hlook
      rw [List.getElem?_append_left (by omega)]
      exact htf

/-- `(let loop ((i 3)) (if (< i 1) 'done (loop (+ i -1))))` runs; the general theorem describes its first step. -/
example : ∃ s', Evals Demo.prims 0 (listOf [.sym "let", .sym "loop", bindingList [("i", .num 3)],
    listOf [.sym "if", listOf [.sym "<", .sym "i", .num 1], listOf [.sym "quote", .sym "done"],
      listOf [.sym "loop", listOf [.sym "+", .sym "i", .num (-1)]]]]) Demo.s0 (.ok (.sym "done")) s' :=
  Demo.evals_of 30 (by decide +kernel)

/-- The hypotheses of `c49_loop_partial` hold together for that program. -/
example (b : V) (o : Out V) (s' : St Unit) :
    Evals Demo.prims 0 (listOf [.sym "let", .sym "loop", bindingList [("i", .num 3)], b]) Demo.s0 o s' ↔
    Evals Demo.prims 3 b
      { Demo.s0 with frames := (withEntries (enter Demo.s0 0 Option.none) 1 ((temps 1).zip [.num 3]).reverse).frames ++
        [⟨[("loop", .proc (listOf [.sym "i"]) (listOf [b]) 2)], some 1, Option.none⟩, ⟨[("i", .num 3)], some 2, Option.none⟩] } o s' := by
  refine c49_loop_partial (P := Demo.prims) (s := Demo.s0) (Q := fun _ => True) (bs := [("i", .num 3)])
    (f := ⟨Demo.builtins, Option.none, Option.none⟩) (vs := [.num 3]) (s1 := enter Demo.s0 0 Option.none)
    (Demo.honest 1) Demo.unreferenced Demo.wf_s0 rfl (Demo.noMacro_s0 _) (Demo.noMacro_s0 _) ?_ (by decide) (by simp) (by simp) ?_ ?_
    (.cons ⟨1, rfl⟩ .nil)
  · intro x _
    exact Ev.NoMacro.push (Demo.noMacro_s0 x) (by simp)
  · intro i h
    have := tempName_head i
    rw [← h] at this
    exact absurd this (by decide)
  · intro x hx
    simp only [List.map_cons, List.map_nil, List.mem_singleton] at hx
    subst hx; trivial

/-- C49 is false for a body of two expressions: `(let loop () 1 2)` returns 1. -/
theorem c49_counterexample : ∃ s', Evals Demo.prims 0 (listOf [.sym "let", .sym "loop", .nil, .num 1, .num 2]) Demo.s0 (.ok (.num 1)) s' :=
  ⟨_, 8, rfl⟩

/-- The temporaries capture variables of the program: with `__temp_0` bound to 5 outside,
`(let loop ((i 1)) __temp_0)` returns 1. -/
theorem c49_capture : ∃ s', Evals Demo.prims 1 (listOf [.sym "let", .sym "loop", bindingList [("i", .num 1)], .sym "__temp_0"])
    (Demo.inFrame [("__temp_0", .num 5)]) (.ok (.num 1)) s' :=
  Demo.evals_of 12 (by decide +kernel)

end Pscm
