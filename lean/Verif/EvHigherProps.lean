import Verif.EvDoProps
/-!
# C53-C57: map, for-each, apply, force, call-with-values
-/
namespace Pscm
open Ev
variable {σ : Type} {Q : σ → Prop} {P : Prims σ}

/-! ## Specification -/

/-- The argument tuples of `(map f l1 ... ln)`: the `i`-th elements of all lists, for every `i` below the length of the shortest. -/
def tuples (cols : List (List V)) : List (List V) :=
  (List.range ((cols.map List.length).min?.getD 0)).map fun i => cols.map fun c => c.getD i .nil

/-- Calling a procedure on each tuple in order and collecting the results. -/
inductive MapEval (A : V → List V → St σ → Out V → St σ → Prop) (f : V) : List (List V) → St σ → Out (List V) → St σ → Prop
  | nil {s} : MapEval A f [] s (.ok []) s
  | cons {r rs s v s1 vs s'} : A f r s (.ok v) s1 → MapEval A f rs s1 (.ok vs) s' → MapEval A f (r :: rs) s (.ok (v :: vs)) s'
  | fail {r rs s e s'} : A f r s (.stop e) s' → MapEval A f (r :: rs) s (.stop e) s'
  | failTail {r rs s v s1 e s'} : A f r s (.ok v) s1 → MapEval A f rs s1 (.stop e) s' → MapEval A f (r :: rs) s (.stop e) s'

/-- Procedure application in states where `quote` has its usual meaning. -/
def AppliesQ (P : Prims σ) (f : V) (vs : List V) (s : St σ) (o : Out V) (s' : St σ) : Prop :=
  NoMacro s "quote" ∧ Applies P f vs s o s'

/-- Outcome `ok vs` as the outcome of an expression whose value is the list of `vs`. -/
def asList : Out (List V) → Out V
  | .ok vs => .ok (listOf vs)
  | .stop e => .stop e

/-- Outcome of a loop run for its effects only. -/
def asNone : Out (List V) → Out V
  | .ok _ => .ok .none
  | .stop e => .stop e

/-! ## Lemmas -/

theorem rows_single (l : List V) : rows [l] = tuples [l] := by
  simp only [rows, tuples, List.map_cons, List.map_nil, List.min?_singleton, Option.getD_some]
  apply List.ext_getElem
  · simp
  · intro i h1 h2
    simp at h1
    simp [List.getD, h1]

theorem min_getD_cons (l : List V) (m : List V) (ls : List (List V)) :
    ((l :: m :: ls).map List.length).min?.getD 0 = min l.length (((m :: ls).map List.length).min?.getD 0) := by
  have h : ∀ (a : Nat) (xs : List Nat), xs ≠ [] → (a :: xs).min?.getD 0 = min a (xs.min?.getD 0) := by
    intro a xs hx
    cases xs with
    | nil => exact absurd rfl hx
    | cons b xs =>
      simp only [List.min?_cons', Option.getD_some, List.foldl_cons]
      have : ∀ (ys : List Nat) (a b : Nat), ys.foldl min (min a b) = min a (ys.foldl min b) := by
        intro ys
        induction ys with
        | nil => intro a b; rfl
        | cons y ys ih => intro a b; simp only [List.foldl_cons]; rw [Nat.min_assoc, ih]
      exact this xs a b
  exact h _ _ (by simp)

theorem rows_eq (cols : List (List V)) (h : cols ≠ []) : rows cols = tuples cols := by
  induction cols with
  | nil => exact absurd rfl h
  | cons l ls ih =>
    cases ls with
    | nil => exact rows_single l
    | cons m ls =>
      rw [rows, ih (by simp)]
      · unfold tuples
        rw [min_getD_cons]
        generalize hk : ((m :: ls).map List.length).min?.getD 0 = k
        apply List.ext_getElem
        · simp
        · intro i h1 h2
          simp at h1
          have : i < l.length := by omega
          simp [List.getD, this]
      · intro h; simp at h

theorem applies_ext {f vs s o} {s' : St σ} (h : Applies P f vs s o s') : Ext s s' := by
  cases h with
  | @closure ps rest body penv f vs s o s' hnd hc hf hseq =>
    have h1 : Ext s { s with frames := s.frames ++ [⟨callBindings ps rest vs, some penv, f.modl⟩] } := by
      refine ⟨?_, ?_, ?_⟩
      · intro i g hg
        exact ⟨g, by rw [List.getElem?_append_left (List.getElem?_eq_some_iff.1 hg).1]; exact hg, rfl, rfl, fun _ h => h⟩
      · intro i g hg hn
        have hlen : s.frames.length ≤ i := List.getElem?_eq_none_iff.1 hn
        simp only at hg
        rw [List.getElem?_append_right hlen] at hg
        cases hi : i - s.frames.length with
        | zero =>
          rw [hi] at hg; cases hg
          exact ⟨penv, rfl, by have := (List.getElem?_eq_some_iff.1 hf).1; omega⟩
        | succ j => rw [hi] at hg; cases hg
      · intro i p hp; exact ⟨p, hp, rfl, rfl, fun _ h => h⟩
    have h2 : ∀ (xs : List V) (env : Nat) (s s' : St σ) (o : Out V), SeqEval (Evals P) env xs s o s' → Ext s s' := by
      intro xs env s s' o h
      induction h with
      | last h => exact run_ext (evals_iff.1 h)
      | next h _ ih => exact (extRel σ).trans _ _ _ (run_ext (evals_iff.1 h)) ih
      | fail h => exact run_ext (evals_iff.1 h)
    exact (extRel σ).trans _ _ _ h1 (h2 _ _ _ _ _ hseq)
  | @builtin n a vs s o s' _ _ hr =>
    revert hr
    generalize P.call n vs s.ext = t
    intro hr
    induction hr with
    | ret => exact Ext.of_eq rfl rfl
    | raise => exact Ext.of_eq rfl rfl
    | back h _ ih =>
      have h1 := run_ext (evals_iff.1 h)
      exact (extRel σ).trans _ _ _ ⟨h1.frames, h1.parents, h1.proms⟩ ih
    | backStop h =>
      have h1 := run_ext (evals_iff.1 h)
      exact ⟨h1.frames, h1.parents, h1.proms⟩

theorem ext_lt {s s' : St σ} (h : Ext s s') {e : Nat} (he : e < s.frames.length) : e < s'.frames.length := by
  obtain ⟨f', hf', _⟩ := h.frames e _ (List.getElem?_eq_some_iff.2 ⟨he, rfl⟩)
  exact (List.getElem?_eq_some_iff.1 hf').1

theorem mapRows_ok {env : EnvId} {f : V} {rs : List (List V)} {s s' : St σ} {o : Out (List V)} (he : env < s.frames.length)
    (h : MapEval (AppliesQ P) f rs s o s') : mapRows P (run P) env f rs s = some (o, s') := by
  induction h with
  | nil => rfl
  | cons h1 _ ih =>
    simp only [mapRows, bind_apply, h1.2.quoted (h1.1.quoteOk env) he, ih (ext_lt (applies_ext h1.2) he)]
    rfl
  | fail h1 => simp only [mapRows, bind_apply, h1.2.quoted (h1.1.quoteOk env) he]
  | failTail h1 _ ih =>
    simp only [mapRows, bind_apply, h1.2.quoted (h1.1.quoteOk env) he, ih (ext_lt (applies_ext h1.2) he)]

theorem evalLists_ok {env : EnvId} {xs : List V} {cols : List (List V)} {s s' : St σ}
    (h : ArgsEval (Evals P) env xs s (.ok (cols.map listOf)) s') : evalLists (run P) env xs s = some (.ok cols, s') := by
  induction xs generalizing s cols with
  | nil =>
    cases cols with
    | nil => cases h; rfl
    | cons c cs => cases h
  | cons x xs ih =>
    cases cols with
    | nil => cases h
    | cons c cs =>
      cases h with
      | cons h1 h2 =>
        have hl : isList (listOf c) = true := by cases c <;> rfl
        simp only [evalLists, bind_apply, evals_iff.1 h1, if_pos hl, ih h2, nodes_listOf]
        rfl

/-! ## C53 -/

/-- C53: `(map f l1 ... ln)` evaluates the procedure and the lists from left to right and then calls the procedure on the tuples of
elements, in order, collecting the results; the shortest list decides. -/
theorem c53_map {env : EnvId} {fe : V} {les : List V} {f : V} {cols : List (List V)} {s s1 s2 s' : St σ} {o : Out (List V)}
    (hm : NoMacro s "map") (he : env < s.frames.length) (hfe : Evals P env fe s (.ok f) s1) (hf : isApplicable f = true)
    (hl : ArgsEval (Evals P) env les s1 (.ok (cols.map listOf)) s2) (hne : les ≠ [])
    (h : MapEval (AppliesQ P) f (tuples cols) s2 o s') :
    Evals P env (listOf (.sym "map" :: fe :: les)) s (asList o) s' := by
  show Evals P env (.pair (.sym "map") (listOf (fe :: les))) s _ s'
  rw [evals_form (f := .map) hm (by decide)]
  have hcl := argsEval_zip_length hl
  cases les with
  | nil => exact absurd rfl hne
  | cons l ls =>
    have hc : cols ≠ [] := by rintro rfl; simp at hcl
    have he2 : env < s2.frames.length :=
      ext_lt (evalArgs_ext (evalArgs_iff.2 hl)) (ext_lt (run_ext (evals_iff.1 hfe)) he)
    simp only [evalForm, nodes_listOf, evalMap, bind_apply, evals_iff.1 hfe, if_pos hf, evalLists_ok hl, rows_eq cols hc,
      mapRows_ok he2 h]
    cases o <;> rfl

/-- C53: what is not a procedure is rejected, before the lists are looked at. -/
theorem c53_map_not_procedure {env : EnvId} {fe l : V} {ls : List V} {f : V} {s s1 : St σ} (hm : NoMacro s "map")
    (hfe : Evals P env fe s (.ok f) s1) (hf : isApplicable f = false) :
    Evals P env (listOf (.sym "map" :: fe :: l :: ls)) s
      (.stop (throwStop s1 "error" (listOf [.str "map: first argument must be a procedure"]))) s1 := by
  show Evals P env (.pair (.sym "map") (listOf (fe :: l :: ls))) s _ s1
  rw [evals_form (f := .map) hm (by decide)]
  simp only [evalForm, nodes_listOf, evalMap, bind_apply, evals_iff.1 hfe, hf]
  rfl

/-- `(map cons '(1 2 3) '(4 5))`. -/
example : tuples [[.num 1, .num 2, .num 3], [.num 4, .num 5]] = [[.num 1, .num 4], [.num 2, .num 5]] := by decide

example : Evals Demo.prims 0 (listOf [.sym "map", .sym "cons", quoted (listOf [.num 1, .num 2, .num 3]), quoted (listOf [.num 4, .num 5])])
    Demo.s0 (.ok (listOf [.pair (.num 1) (.num 4), .pair (.num 2) (.num 5)])) Demo.s0 := by
  refine c53_map (o := .ok _) (f := .func "cons" 2) (cols := [[.num 1, .num 2, .num 3], [.num 4, .num 5]]) (Demo.noMacro_s0 _) (by decide)
    ⟨1, rfl⟩ rfl (.cons ⟨2, rfl⟩ (.cons ⟨2, rfl⟩ .nil)) (by simp) ?_
  rw [show tuples [[V.num 1, .num 2, .num 3], [.num 4, .num 5]] = [[.num 1, .num 4], [.num 2, .num 5]] by decide]
  exact .cons ⟨Demo.noMacro_s0 _, .builtin (by decide) (.inl ⟨rfl, by decide⟩) .ret⟩
    (.cons ⟨Demo.noMacro_s0 _, .builtin (by decide) (.inl ⟨rfl, by decide⟩) .ret⟩ .nil)

/-! ## C54 -/

/-- The number of arguments that `for-each` passes is the number of lists: as many fixed parameters as lists, or a builtin that takes
that many or any number. -/
def TakesLists (f : V) (k : Nat) : Prop :=
  (∃ ps body env, f = .proc (paramList ps Option.none) body env ∧ ps.length = k) ∨ (∃ n a, f = .func n a ∧ (a < 0 ∨ a = (k : Int)))

theorem forEachArgs_ok {env : EnvId} {xs : List V} {cols : List (List V)} {s s' : St σ}
    (h : ArgsEval (Evals P) env xs s (.ok (cols.map listOf)) s') : forEachArgs (run P) env xs.length xs s = some (.ok cols, s') := by
  induction xs generalizing s cols with
  | nil =>
    cases cols with
    | nil => cases h; rfl
    | cons c cs => cases h
  | cons x xs ih =>
    cases cols with
    | nil => cases h
    | cons c cs =>
      cases h with
      | cons h1 h2 =>
        have hl : isList (listOf c) = true := by cases c <;> rfl
        simp only [List.length_cons, forEachArgs, bind_apply, evals_iff.1 h1, if_pos hl, ih h2, nodes_listOf]
        rfl

/-- `tuples` of lists of the same length, one element at a time. -/
theorem tuples_cons {cols : List (List V)} {k : Nat} (hne : cols ≠ []) (hk : ∀ c ∈ cols, c.length = k + 1) :
    tuples cols = (cols.map fun c => c.headD .nil) :: tuples (cols.map List.tail) := by
  have hmin : ∀ (cs : List (List V)) (j : Nat), cs ≠ [] → (∀ c ∈ cs, c.length = j) → (cs.map List.length).min?.getD 0 = j := by
    intro cs j hne h
    induction cs with
    | nil => exact absurd rfl hne
    | cons c cs ih =>
      cases cs with
      | nil => simpa using h c (by simp)
      | cons d ds => rw [min_getD_cons, ih (by simp) (fun c hc => h c (List.mem_cons_of_mem _ hc)), h c (by simp)]; simp
  unfold tuples
  rw [hmin cols (k + 1) hne hk, hmin (cols.map List.tail) k (by simpa using hne) (by
    intro c hc
    obtain ⟨d, hd, rfl⟩ := List.mem_map.1 hc
    simp [hk d hd])]
  rw [List.range_succ_eq_map, List.map_cons, List.map_map]
  congr 1
  · apply List.map_congr_left
    intro c hc
    cases c <;> simp [List.getD]
  · apply List.map_congr_left
    intro i hi
    simp only [Function.comp, List.map_map]
    apply List.map_congr_left
    intro c hc
    simp only [Function.comp]
    cases c <;> simp [List.getD]

theorem forEachLoop_ok {env : EnvId} {f : V} {k : Nat} {cols : List (List V)} {s s' : St σ} {o : Out (List V)} (hne : cols ≠ [])
    (hk : ∀ c ∈ cols, c.length = k) (hnil : ∀ c ∈ cols, V.nil ∉ c) (he : env < s.frames.length)
    (h : MapEval (AppliesQ P) f (tuples cols) s o s') :
    forEachLoop (run P) env f (k + 1) cols s = some (asNone o, s') := by
  induction k generalizing cols s o with
  | zero =>
    have hall : cols.all exhausted = true := by
      rw [List.all_eq_true]
      intro c hc
      have := hk c hc
      cases c with
      | nil => rfl
      | cons => simp at this
    have ht : tuples cols = [] := by
      unfold tuples
      have : (cols.map List.length).min?.getD 0 = 0 := by
        cases cols with
        | nil => exact absurd rfl hne
        | cons c cs =>
          have h0 := hk c (by simp)
          simp only [List.map_cons, h0, List.min?_cons', Option.getD_some]
          have : ∀ ys : List Nat, ys.foldl min 0 = 0 := by
            intro ys; induction ys with
            | nil => rfl
            | cons y ys ih => simpa using ih
          exact this _
      rw [this]; rfl
    rw [ht] at h
    cases h
    simp only [forEachLoop, if_pos hall]
    rfl
  | succ k ih =>
    have hnone : ∀ c ∈ cols, exhausted c = false := by
      intro c hc
      have h1 := hk c hc
      cases c with
      | nil => simp at h1
      | cons x xs =>
        simp only [exhausted]
        have : x ≠ .nil := fun h => hnil _ hc (by simp [h])
        simpa using this
    have hall : ¬ cols.all exhausted = true := by
      intro h
      cases cols with
      | nil => exact hne rfl
      | cons c cs =>
        have := (List.all_eq_true.1 h) c (by simp)
        rw [hnone c (by simp)] at this; cases this
    have hany : ¬ cols.any exhausted = true := by
      intro h
      obtain ⟨c, hc, hh⟩ := List.any_eq_true.1 h
      rw [hnone c hc] at hh; cases hh
    rw [tuples_cons hne hk] at h
    have htail : ∀ {s1 : St σ} {o'}, env < s1.frames.length → MapEval (AppliesQ P) f (tuples (cols.map List.tail)) s1 o' s' →
        forEachLoop (run P) env f (k + 1) (cols.map List.tail) s1 = some (asNone o', s') := by
      intro s1 o' he1 h1
      refine ih (by simpa using hne) ?_ ?_ he1 h1
      · intro c hc
        obtain ⟨d, hd, rfl⟩ := List.mem_map.1 hc
        simp [hk d hd]
      · intro c hc
        obtain ⟨d, hd, rfl⟩ := List.mem_map.1 hc
        exact fun hh => hnil d hd (List.mem_of_mem_tail hh)
    have hcall : ∀ {o1 : Out V} {s1 : St σ}, AppliesQ P f (cols.map fun c => c.headD .nil) s o1 s1 →
        run P (.eval env (.pair f (listOf (cols.map fun c => quoted (c.headD .nil))))) s = some (o1, s1) := by
      intro o1 s1 h1
      have := h1.2.call (h1.1.quoteOk env) he
      rw [List.map_map] at this
      exact evals_iff.1 this
    rw [forEachLoop, if_neg hall, if_neg hany, bind_apply]
    cases h with
    | cons h1 h2 => rw [hcall h1]; exact (htail (ext_lt (applies_ext h1.2) he) h2).trans rfl
    | fail h1 => rw [hcall h1]; rfl
    | failTail h1 h2 => rw [hcall h1]; exact htail (ext_lt (applies_ext h1.2) he) h2

/-- C54: `(for-each f l1 ... ln)` calls the procedure on the tuples of elements in order.  Partial: the lists have equal lengths, no element is
the empty list (`c54_counterexample`), at most ten lists, and the procedure declares exactly as many parameters as there are lists
(`c54_rest_counterexample`). -/
theorem c54_for_each_partial {env : EnvId} {fe : V} {les : List V} {f : V} {k : Nat} {cols : List (List V)} {s s1 s2 s' : St σ}
    {o : Out (List V)} (hm : NoMacro s "for-each") (he : env < s.frames.length) (hfe : Evals P env fe s (.ok f) s1)
    (hl : ArgsEval (Evals P) env les s1 (.ok (cols.map listOf)) s2) (hne : les ≠ []) (hten : les.length ≤ 10)
    (ht : TakesLists f les.length) (hk : ∀ c ∈ cols, c.length = k) (hnil : ∀ c ∈ cols, V.nil ∉ c)
    (h : MapEval (AppliesQ P) f (tuples cols) s2 o s') :
    Evals P env (listOf (.sym "for-each" :: fe :: les)) s (asNone o) s' := by
  show Evals P env (.pair (.sym "for-each") (listOf (fe :: les))) s _ s'
  rw [evals_form (f := .forEach) hm (by decide)]
  have hcl := argsEval_zip_length hl
  have hc : cols ≠ [] := by
    rintro rfl
    cases les with
    | nil => exact hne rfl
    | cons => simp at hcl
  have he2 : env < s2.frames.length := ext_lt (evalArgs_ext (evalArgs_iff.2 hl)) (ext_lt (run_ext (evals_iff.1 hfe)) he)
  have hcount : forEachCount f les = some les.length := by
    rcases ht with ⟨ps, body, e, rfl, hp⟩ | ⟨n, a, rfl, ha⟩
    · simp only [forEachCount, paramList_listOf, nodes_listOf, List.length_map, hp]
    · simp only [forEachCount]
      rcases ha with ha | ha
      · rw [if_pos ha]
      · have : ¬ a < 0 := by omega
        rw [if_neg this, ha]; rfl
  have hhead : (cols.headD []).length = k := by
    cases cols with
    | nil => exact absurd rfl hc
    | cons c cs => exact hk c (by simp)
  simp only [evalForm, nodes_listOf, evalForEach, bind_apply, evals_iff.1 hfe, hcount]
  rw [if_neg (by omega)]
  simp only [bind_apply, forEachArgs_ok hl, hhead, forEachLoop_ok hc hk hnil he2 h]

/-- `(for-each list '(1 2))`. -/
example : Evals Demo.prims 0 (listOf [.sym "for-each", .sym "list", quoted (listOf [.num 1, .num 2])]) Demo.s0 (.ok .none) Demo.s0 := by
  refine c54_for_each_partial (o := .ok [listOf [.num 1], listOf [.num 2]]) (f := .func "list" (-2)) (cols := [[.num 1, .num 2]]) (k := 2)
    (Demo.noMacro_s0 _) (by decide) ⟨1, rfl⟩ (.cons ⟨2, rfl⟩ .nil) (by simp) (by decide) (.inr ⟨_, _, rfl, .inl (by decide)⟩) (by simp)
    (by simp) ?_
  exact .cons ⟨Demo.noMacro_s0 _, .builtin (by decide) (.inr rfl) .ret⟩
    (.cons ⟨Demo.noMacro_s0 _, .builtin (by decide) (.inr rfl) .ret⟩ .nil)

/-- C54 is false when an element is the empty list: `(for-each (lambda (x) (throw 'seen)) '(() 1 2))` returns without calling the
procedure. -/
theorem c54_counterexample : ∃ s', Evals Demo.prims 0 (listOf [.sym "for-each",
    listOf [.sym "lambda", listOf [.sym "x"], listOf [.sym "throw", quoted (.sym "seen")]],
    quoted (listOf [.nil, .num 1, .num 2])]) Demo.s0 (.ok .none) s' :=
  Demo.evals_of 8 (by decide +kernel)

/-- With a rest parameter only the first list is used: `(for-each (lambda args (throw 'seen args)) '(1) '(2))` passes 1 alone. -/
theorem c54_rest_counterexample : ∃ s', Evals Demo.prims 0 (listOf [.sym "for-each",
    listOf [.sym "lambda", .sym "args", listOf [.sym "throw", quoted (.sym "seen"), .sym "args"]],
    quoted (listOf [.num 1]), quoted (listOf [.num 2])]) Demo.s0
    (.stop (.err Option.none "seen" (listOf [listOf [.num 1]]))) s' :=
  Demo.evals_of 12 (by decide +kernel)

/-! ## C55 -/

/-- Values that evaluate to themselves when they are evaluated again. -/
def SelfEvaluating : V → Prop
  | .sym x => isKeyword x = true
  | .pair _ _ => False
  | _ => True

theorem run_self {env v} {s : St σ} (h : SelfEvaluating v) : run P (.eval env v) s = some (.ok v, s) := by
  rw [run_eq]
  cases v with
  | sym x =>
    show (if isKeyword x = true then pure (.sym x) else lookupSymbol env x : EM σ V) s = _
    have h : isKeyword x = true := h
    rw [if_pos h]; rfl
  | pair => exact absurd h (by simp [SelfEvaluating])
  | _ => rfl

/-- `args` evaluate to `vs` without effects: quoted values and self-evaluating ones. -/
inductive Constants : List V → List V → Prop
  | nil : Constants [] []
  | quote {v as vs} : Constants as vs → Constants (quoted v :: as) (v :: vs)
  | self {v as vs} : SelfEvaluating v → Constants as vs → Constants (v :: as) (v :: vs)

theorem Constants.length {as vs} (h : Constants as vs) : as.length = vs.length := by
  induction h <;> simp_all

theorem constants_append {lead els : List V} (h : ∀ v ∈ lead, SelfEvaluating v) : Constants (lead ++ els.map quoted) (lead ++ els) := by
  induction lead with
  | nil =>
    induction els with
    | nil => exact .nil
    | cons x xs ih => exact .quote ih
  | cons x xs ih => exact .self (h x (by simp)) (ih fun v hv => h v (List.mem_cons_of_mem _ hv))

theorem evalArgs_constants {env as vs} {s : St σ} (h : Constants as vs) (hq : QuoteOk s env) :
    evalArgs (run P) env as s = some (.ok vs, s) := by
  induction h with
  | nil => rfl
  | quote _ ih => simp only [evalArgs, bind_apply, run_quoted hq, ih]; rfl
  | self hv _ ih => simp only [evalArgs, bind_apply, run_self hv, ih]; rfl

theorem bindParams_constants {s : St σ} {env pe : EnvId} (ps : List Name) (rest : Option Name) {as vs : List V} (h : Constants as vs)
    (hq : QuoteOk s env) (he : env ≠ pe) (h0 : 0 ≠ pe) (hc : CountOk ps rest vs.length) :
    bindParams (run P) env pe (ps.map V.sym) rest as s = bindValues pe (ps.map V.sym) rest vs s := by
  induction ps generalizing s as vs with
  | nil =>
    cases rest with
    | none =>
      have : vs = [] := by simpa [CountOk] using hc
      subst this
      cases h
      rfl
    | some r => simp only [List.map_nil, bindParams, bindValues, bind_apply, evalArgs_constants h hq]
  | cons p ps ih =>
    have hq' : ∀ v, QuoteOk { s with frames := updFrame s.frames pe (upsert p v) } env := by
      intro v w hw
      rw [opValue_updFrame he h0] at hw
      exact hq w hw
    cases h with
    | nil => cases rest <;> simp [CountOk] at hc
    | quote h =>
      simp only [List.map_cons, bindParams, bindValues, bind_apply, run_quoted hq, bindOwn_apply]
      exact ih h (hq' _) (by cases rest <;> simpa [CountOk] using hc)
    | self hv h =>
      simp only [List.map_cons, bindParams, bindValues, bind_apply, run_self hv, bindOwn_apply]
      exact ih h (hq' _) (by cases rest <;> simpa [CountOk] using hc)

theorem applyTo_ok {f vs as o} {s s' : St σ} {env : EnvId} (h : Applies P f vs s o s') (hc : Constants as vs) (hq : QuoteOk s env)
    (he : env < s.frames.length) : applyTo P (run P) env f as s = some (o, s') := by
  cases h with
  | @closure ps rest body penv f vs s o s' hnd hcnt hf h =>
    show applyProc (run P) env (paramList ps rest) (listOf body) penv as s = _
    unfold applyProc
    simp only [bind_apply, newEnv_apply hf, splitParams_paramList]
    have hq' : QuoteOk { s with frames := s.frames ++ [⟨[], some penv, f.modl⟩] } env := by
      intro w hw
      refine hq w ?_
      rw [← hw]
      symm
      apply opValue_congr <;> try rfl
      · show (s.frames ++ _)[env]? = _
        rw [List.getElem?_append_left he]
      · show (s.frames ++ _)[0]? = _
        rw [List.getElem?_append_left (by omega)]
    rw [bindParams_constants ps rest hc hq' (by omega) (by omega) hcnt]
    rw [bindValues_apply (f := ⟨[], some penv, f.modl⟩) ps rest vs (by simp) hnd (by simp) hcnt]
    simp only [updFrame_push, List.append_nil]
    exact seq_nodes h
  | builtin hn ha hp =>
    have hce := callFunc_ext (P := P) (rec := run P) hn ha
    simp only [interpreterNames, List.mem_cons, not_or, List.not_mem_nil, not_false_eq_true, and_true] at hn
    obtain ⟨h1, h2, h3, h4, h5, h6, h7, h8, h9, h10, h11, h12, h13, h14, h15, _, _, _, _, _, _, _, _, _, _⟩ := hn
    simp only [applyTo, isCallCC, h11, h12, h14, h15, or_self, if_false, decide_false, Bool.or_self, Bool.false_eq_true, bind_apply,
      evalArgs_constants hc hq, hce, extPrim_of hp]

/-- C55: `(apply f a ... l)` calls `f` on the values of `a ...` followed by the elements of `l` (the list is evaluated before the leading
arguments).  Partial: the leading values must evaluate to themselves, because they are evaluated again (`c55_counterexample`). -/
theorem c55_apply_partial {env : EnvId} {fe le : V} {as : List V} {f : V} {els vs : List V} {s s1 s2 s3 s' : St σ} {o : Out V}
    (hm : NoMacro s "apply") (he : env < s.frames.length) (hfe : Evals P env fe s (.ok f) s1)
    (hle : Evals P env le s1 (.ok (listOf els)) s2) (has : ArgsEval (Evals P) env as s2 (.ok vs) s3)
    (hself : ∀ v ∈ vs, SelfEvaluating v) (h : AppliesQ P f (vs ++ els) s3 o s') :
    Evals P env (listOf (.sym "apply" :: fe :: (as ++ [le]))) s o s' := by
  show Evals P env (.pair (.sym "apply") (listOf (fe :: (as ++ [le])))) s o s'
  rw [evals_form (f := .apply) hm (by decide)]
  have he3 : env < s3.frames.length := ext_lt (evalArgs_ext (evalArgs_iff.2 has)) (ext_lt (run_ext (evals_iff.1 hle))
    (ext_lt (run_ext (evals_iff.1 hfe)) he))
  have happ := h.2.applicable
  have hlast : (as ++ [le]).getLastD .nil = le := by simp
  have hdrop : (as ++ [le]).dropLast = as := by simp
  have hl : isList (listOf els) = true := by cases els <;> rfl
  have hto := applyTo_ok h.2 (constants_append (els := els) hself) (h.1.quoteOk env) he3
  simp only [evalForm, nodes_listOf, evalApply, bind_apply, evals_iff.1 hfe]
  generalize hg : as ++ [le] = al at *
  have hne : al ≠ [] := by rw [← hg]; simp
  cases al with
  | nil => exact absurd rfl hne
  | cons a1 al' =>
    have hcont : ∀ id, f ≠ .cont id := by rintro id rfl; cases happ
    cases f with
    | cont id => exact absurd rfl (hcont id)
    | proc _ _ _ =>
      simp only [if_pos happ, bind_apply, hlast, evals_iff.1 hle, if_pos hl, hdrop, evalArgs_iff.2 has, nodes_listOf]
      exact hto
    | func _ _ =>
      simp only [if_pos happ, bind_apply, hlast, evals_iff.1 hle, if_pos hl, hdrop, evalArgs_iff.2 has, nodes_listOf]
      exact hto
    | _ => cases happ

/-- `(apply list 1 '(a (b)))`. -/
example : Evals Demo.prims 0 (listOf (.sym "apply" :: .sym "list" :: ([.num 1] ++ [quoted (listOf [.sym "a", listOf [.sym "b"]])]))) Demo.s0
    (.ok (listOf [.num 1, .sym "a", listOf [.sym "b"]])) Demo.s0 := by
  refine c55_apply_partial (f := .func "list" (-2)) (vs := [.num 1]) (els := [.sym "a", listOf [.sym "b"]]) (Demo.noMacro_s0 _) (by decide)
    ⟨1, rfl⟩ ⟨2, rfl⟩ (.cons ⟨1, rfl⟩ .nil) ?_ ⟨Demo.noMacro_s0 _, .builtin (by decide) (.inr rfl) .ret⟩
  intro v hv
  simp only [List.mem_singleton] at hv
  subst hv; trivial

/-- C55 is false for other leading values: `(apply list 'a '())` evaluates the symbol `a` again and fails. -/
theorem c55_counterexample : ∃ s', Evals Demo.prims 0 (listOf [.sym "apply", .sym "list", quoted (.sym "a"), quoted .nil]) Demo.s0
    (.stop (.err Option.none "error" (listOf [.str "symbol not found"]))) s' :=
  Demo.evals_of 8 (by decide +kernel)

/-! ## C56 -/

/-- `(force p)` for the promise object `p`. -/
abbrev forceExpr (id : Nat) : V := listOf [.func "force" 1, .promise id]

theorem run_force {env : EnvId} {id : Nat} {s : St σ} : run P (.eval env (forceExpr id)) s = force (run P) id s := by
  rw [run_eq]
  show evalFuncCall P (run P) env "force" 1 (listOf [.promise id]) s = _
  have hp : run P (.eval env (.promise id)) s = some (.ok (.promise id), s) := by rw [run_eq]; rfl
  unfold evalFuncCall
  rw [if_neg (by decide), if_neg (by decide), if_neg (by decide)]
  rw [bind_apply]
  simp only [listOf, nodes, evalArgs, bind_apply, hp, pure_apply]
  rfl

/-- States reached by running more programs. -/
inductive Later (P : Prims σ) : St σ → St σ → Prop
  | refl {s} : Later P s s
  | step {s s1 s2 env x o} : Later P s s1 → Evals P env x s1 o s2 → Later P s s2

theorem Later.ext {s s' : St σ} (h : Later P s s') : Ext s s' := by
  induction h with
  | refl => exact Ext.of_eq rfl rfl
  | step _ h2 ih => exact (extRel σ).trans _ _ _ ih (run_ext (evals_iff.1 h2))

/-- C56: once `(force p)` has returned `v`, every later `(force p)`, after any other evaluations, returns `v` again and does nothing else -- in
particular it does not evaluate the delayed expression. -/
theorem c56_force_same {env env' : EnvId} {id : Nat} {v : V} {s s1 s2 : St σ} (h : Evals P env (forceExpr id) s (.ok v) s1)
    (hl : Later P s1 s2) : Evals P env' (forceExpr id) s2 (.ok v) s2 := by
  rw [evals_iff, run_force] at h ⊢
  have hval : ∃ p : Promise, s1.proms[id]? = some p ∧ p.val = some v := by
    unfold force at h
    rw [getSt_bind] at h
    cases hp : s.proms[id]? with
    | none => rw [hp] at h; cases h
    | some p =>
      rw [hp] at h
      simp only at h
      cases hpv : p.val with
      | some w =>
        rw [hpv] at h
        cases h
        exact ⟨p, hp, hpv⟩
      | none =>
        rw [hpv] at h
        simp only at h
        rw [bind_eq_some] at h
        rcases h with ⟨r, s3, h3, h⟩ | ⟨e, _, hh⟩
        · rw [getSt_bind] at h
          cases hpv3 : promVal s3 id with
          | some w =>
            rw [hpv3] at h
            cases h
            unfold promVal at hpv3
            cases hp3 : s1.proms[id]? with
            | none => rw [hp3] at hpv3; cases hpv3
            | some q => rw [hp3] at hpv3; exact ⟨q, rfl, hpv3⟩
          | none =>
            rw [hpv3] at h
            simp only at h
            unfold setProm at h
            rw [modSt_bind] at h
            cases hp3 : s3.proms[id]? with
            | none =>
              exfalso
              have hext : Ext s s3 := by
                unfold applyProc at h3
                rw [bind_eq_some] at h3
                rcases h3 with ⟨pe, s4, h4, h3⟩ | ⟨e, _, hh⟩
                · have he4 : s4.proms = s.proms := by
                    unfold newEnv at h4
                    cases hfr : s.frames[p.env]? with
                    | none => rw [hfr] at h4; cases h4
                    | some f => rw [hfr] at h4; cases h4; rfl
                  rw [bind_eq_some] at h3
                  rcases h3 with ⟨u, s5, h5, h3⟩ | ⟨e, _, hh⟩
                  · have : s5 = s4 := by
                      simp only [splitParams, bindParams, pure_apply, Option.some.injEq, Prod.mk.injEq] at h5
                      exact h5.2.symm
                    subst this
                    have h6 : run P (.eval pe p.expr) s5 = some (.ok r, s3) := h3
                    obtain ⟨q, hq, _⟩ := (run_ext h6).proms id p (by rw [he4]; exact hp)
                    rw [hp3] at hq; cases hq
                  · cases hh
                · cases hh
              obtain ⟨q, hq, _⟩ := hext.proms id p hp
              rw [hp3] at hq; cases hq
            | some q =>
              rw [hp3] at h
              cases h
              have hlt : id < s3.proms.length := (List.getElem?_eq_some_iff.1 hp3).1
              exact ⟨{ q with val := some v }, by simp [hlt], rfl⟩
        · cases hh
  obtain ⟨p, hp, hpv⟩ := hval
  obtain ⟨p', hp', _, _, hk⟩ := hl.ext.proms id p hp
  unfold force
  rw [getSt_bind, hp']
  simp only [hk v hpv]
  rfl

/-- C56: the first `force` evaluates the delayed expression in (a new frame below) the environment of the `delay`, and remembers the value
-- unless the promise was forced meanwhile, in which case that value is returned. -/
theorem c56_first {env : EnvId} {id : Nat} {p : Promise} {f : Frame} {r : V} {s s1 : St σ} (hp : s.proms[id]? = some p)
    (hv : p.val = Option.none) (hf : s.frames[p.env]? = some f)
    (h : Evals P s.frames.length p.expr (enter s p.env f.modl) (.ok r) s1) :
    ∃ q : Promise, s1.proms[id]? = some q ∧
      (q.val = Option.none → Evals P env (forceExpr id) s (.ok r) { s1 with proms := s1.proms.set id { q with val := some r } }) ∧
      (∀ w, q.val = some w → Evals P env (forceExpr id) s (.ok w) s1) := by
  obtain ⟨q, hq, _⟩ := (run_ext (evals_iff.1 h)).proms id p hp
  have happ : applyProc (run P) p.env .nil (.pair p.expr .nil) p.env [] s = some (.ok r, s1) := by
    rw [applyProc_enter hf]
    exact evals_iff.1 h
  refine ⟨q, hq, ?_, ?_⟩
  · intro hn
    rw [evals_iff, run_force]
    unfold force
    rw [getSt_bind, hp]
    simp only [hv, bind_apply, happ, getSt_apply, promVal, hq, hn, setProm, modSt_apply, pure_apply]
  · intro w hw
    rw [evals_iff, run_force]
    unfold force
    rw [getSt_bind, hp]
    simp only [hv, bind_apply, happ, getSt_apply, promVal, hq, hw, pure_apply]

/-- A promise for `(+ 1 2)`. -/
example : Evals Demo.prims 0 (forceExpr 0) { Demo.s0 with proms := [⟨0, listOf [.sym "+", .num 1, .num 2], Option.none⟩] } (.ok (.num 3))
    { Demo.s0 with frames := Demo.s0.frames ++ [⟨[], some 0, Option.none⟩],
                   proms := [⟨0, listOf [.sym "+", .num 1, .num 2], some (.num 3)⟩] } := ⟨5, rfl⟩

/-- "At most once" fails when forcing the promise forces it again: the expression `(begin (set! n (+ n 1)) (if (< n 2) (force p) n))` is
evaluated twice, `n` goes from 0 to 2. -/
theorem c56_counterexample : ∃ s', Evals Demo.prims 1
    (listOf [.sym "begin",
      listOf [.sym "set!", .sym "p", listOf [.sym "delay",
        listOf [.sym "begin", listOf [.sym "set!", .sym "n", listOf [.sym "+", .sym "n", .num 1]],
          listOf [.sym "if", listOf [.sym "<", .sym "n", .num 2], listOf [.sym "force", .sym "p"], .sym "n"]]]],
      listOf [.sym "force", .sym "p"],
      .sym "n"]) (Demo.inFrame [("n", .num 0), ("p", .bool false)]) (.ok (.num 2)) s' :=
  Demo.evals_of 30 (by decide +kernel)

/-! ## C57 -/

theorem run_values {env : EnvId} {es vs : List V} {s s' : St σ} (h : ArgsEval (Evals P) env es s (.ok vs) s') :
    Evals P env (.pair (.func "values" (-2)) (listOf es)) s (.ok (listOf vs)) s' := by
  rw [evals_step]
  show evalFuncCall P (run P) env "values" (-2) (listOf es) s = _
  unfold evalFuncCall
  rw [if_neg (by decide), if_neg (by decide), if_neg (by decide)]
  rw [bind_apply, nodes_listOf, evalArgs_iff.2 h]
  rfl

/-- C57: `(call-with-values producer consumer)` where the producer is a procedure without parameters whose last expression is
`(values e ...)`: the consumer is called on exactly the values of `e ...`, in order, whatever they are. -/
theorem c57_values {env : EnvId} {pe ce : V} {penv : EnvId} {es vs : List V} {f : V} {fr : Frame} {s s1 s2 s3 s' : St σ} {o : Out V}
    (hm : NoMacro s "call-with-values")
    (hpe : Evals P env pe s (.ok (.proc .nil (listOf [.pair (.func "values" (-2)) (listOf es)]) penv)) s1)
    (hf : s1.frames[penv]? = some fr)
    (hes : ArgsEval (Evals P) s1.frames.length es (enter s1 penv fr.modl) (.ok vs) s2)
    (hce : Evals P env ce s2 (.ok f) s3) (h : Applies P f vs s3 o s') :
    Evals P env (listOf [.sym "call-with-values", pe, ce]) s o s' := by
  show Evals P env (.pair (.sym "call-with-values") (listOf [pe, ce])) s o s'
  rw [evals_form (f := .callWithValues) hm (by decide)]
  have hprod : applyProc (run P) env .nil (listOf [.pair (.func "values" (-2)) (listOf es)]) penv [] s1 = some (.ok (listOf vs), s2) := by
    rw [applyProc_enter hf]
    exact evals_iff.1 (run_values hes)
  have hsp : spread (listOf vs) = vs := by
    cases vs with
    | nil => rfl
    | cons v vs => simp only [listOf, spread, nodes, nodes_listOf]
  simp only [evalForm, nodes_listOf, evalCallWithValues, bind_apply, evals_iff.1 hpe, hprod, evals_iff.1 hce]
  have hv := h.values
  cases h <;> simp only [hsp] <;> exact hv

/-- C57, for a producer that returns an ordinary value: the consumer receives it.  Partial: the value must not be a list
(`c57_counterexample`). -/
theorem c57_single_partial {env : EnvId} {pe ce : V} {p f r : V} {s s1 s2 s3 s' : St σ} {o : Out V}
    (hm : NoMacro s "call-with-values") (hpe : Evals P env pe s (.ok p) s1) (hq : NoMacro s1 "quote") (he : env < s1.frames.length)
    (hp : Applies P p [] s1 (.ok r) s2)
    (hr : isList r = false) (hce : Evals P env ce s2 (.ok f) s3) (h : Applies P f [r] s3 o s') :
    Evals P env (listOf [.sym "call-with-values", pe, ce]) s o s' := by
  show Evals P env (.pair (.sym "call-with-values") (listOf [pe, ce])) s o s'
  rw [evals_form (f := .callWithValues) hm (by decide)]
  have hsp : spread r = [r] := by cases r <;> first | rfl | cases hr
  have hprod := hp.quoted (hq.quoteOk env) he
  have hv := h.values
  simp only [evalForm, nodes_listOf, evalCallWithValues, bind_apply, evals_iff.1 hpe]
  cases p with
  | proc ps b e =>
    have hprod : applyProc (run P) env ps b e [] s1 = some (.ok r, s2) := hprod
    simp only [hprod, evals_iff.1 hce]
    cases h <;> simp only [hsp] <;> exact hv
  | func n a =>
    have hprod : callFunc P (run P) n a [] s1 = some (.ok r, s2) := by
      have := hprod
      simp only [applyQuoted, List.map_nil, evalArgs, pure_bind'] at this
      exact this
    simp only [hprod, evals_iff.1 hce]
    cases h <;> simp only [hsp] <;> exact hv
  | _ => cases hp

/-- `(call-with-values (lambda () (values '(1) 2)) list)`: the hypotheses hold together; a list among the values stays one value. -/
example : Evals Demo.prims 0 (listOf [.sym "call-with-values",
    .proc .nil (listOf [.pair (.func "values" (-2)) (listOf [quoted (listOf [.num 1]), .num 2])]) 0, .sym "list"]) Demo.s0
    (.ok (listOf [listOf [.num 1], .num 2])) (enter Demo.s0 0 Option.none) :=
  c57_values (f := .func "list" (-2)) (fr := ⟨Demo.builtins, Option.none, Option.none⟩) (vs := [listOf [.num 1], .num 2])
    (Demo.noMacro_s0 _) ⟨1, rfl⟩ rfl (.cons ⟨2, rfl⟩ (.cons ⟨1, rfl⟩ .nil)) ⟨1, rfl⟩ (.builtin (by decide) (.inr rfl) .ret)

/-- C57 is false for a producer that returns a list as its one value: `(call-with-values (lambda () (list 1 2)) (lambda (x) x))` calls the
consumer with two arguments and fails. -/
theorem c57_counterexample : ∃ s', Evals Demo.prims 0 (listOf [.sym "call-with-values",
    listOf [.sym "lambda", .nil, listOf [.sym "list", .num 1, .num 2]], listOf [.sym "lambda", listOf [.sym "x"], .sym "x"]]) Demo.s0
    (.stop (.err Option.none "error" (listOf [.str "too many arguments"]))) s' :=
  Demo.evals_of 8 (by decide +kernel)

end Pscm
