import Verif.RefSim2
/-! # The interpreter simulates the reference semantics: expressions -/
namespace Pscm.Ref
open Pscm.Ev hiding Name Form evalForm
open Pscm.Ev.EM (modSt)
variable {σ : Type} {P : Prims σ} {A : Name → Int → Prop} {B : Builtins} {W W' : World} {st : Store} {s s' : St σ} {X0 : Fixed σ}

/-- The builtins of the interpreter do what the semantics says: when the semantics gives a result for a builtin, the interpreter returns a value that stands for it and
changes nothing but the state of the builtins, which reflects what is printed; when the semantics signals an error, so does the interpreter, and changes nothing. -/
structure Implements (X0 : Fixed σ) (P : Prims σ) (A : Name → Int → Prop) (B : Builtins) : Prop where
  plain : ∀ {x a}, A x a → B.dom x = true → x ≠ "apply" ∧ x ≠ "map" ∧ x ≠ "map-in-order" ∧ isCallCC x = false
  value : ∀ {x a vs v W ws} {s : St σ}, A x a → B.dom x = true → B.ap x vs = .val v → VRels A W vs ws → ∀ {evs : List Event}, X0.ext evs s.ext →
    ∃ w y, callFunc P (run P) x a ws s = some (.ok w, { s with ext := y }) ∧ VRel A W v w ∧ X0.ext (evs ++ B.prints x vs) y
  error : ∀ {x a vs W ws} {s : St σ}, A x a → B.dom x = true → B.ap x vs = .error → VRels A W vs ws → Throws X0.target s →
    ∃ k d, callFunc P (run P) x a ws s = some (.stop (.err X0.target k d), s)

/-- Expressions, with at most `n` nested evaluations of the semantics. -/
def SimAt (X0 : Fixed σ) (P : Prims σ) (A : Name → Int → Prop) (B : Builtins) (n : Nat) : Prop :=
  ∀ {env : Nat} {ρ : Env} {e : Exp} {W : World} {st : Store} {s : St σ}, e.Ok → EnvAt W env ρ → StRel X0 A W st s →
    Sim X0 A (VRel A) W s (run P (.eval env e.toV) s) (eval B n ρ e st)

theorem oks_cons {e : Exp} {es : List Exp} (h : Exp.Oks (e :: es)) : e.Ok ∧ Exp.Oks es := by simpa [Exp.Oks] using h

theorem toVs_length (es : List Exp) : (Exp.toVs es).length = es.length := by
  induction es with
  | nil => rfl
  | cons e es ih => simp [Exp.toVs, ih]

theorem evalArgs_length {rec : Rec σ} {env : Nat} {xs ws : List V} {s s' : St σ} (h : evalArgs rec env xs s = some (.ok ws, s')) :
    ws.length = xs.length := by
  induction xs generalizing s ws with
  | nil => cases h; rfl
  | cons x xs ih =>
    simp only [evalArgs, bind_apply] at h
    split at h
    · cases h
    · split at h
      · cases h
      · rename_i hh
        cases h
        simp [ih hh]
      · cases h
    · cases h

/-- An expression is not a keyword. -/
theorem toV_reserved {e : Exp} (h : e.Ok) {x : Name} (hx : x ∈ reserved) : e.toV ≠ .sym x := by
  cases e with
  | var y =>
    intro he
    cases he
    simp only [Exp.Ok] at h
    exact h.1 hx
  | const c => cases c <;> simp [Exp.toV, Const.toV]
  | _ => simp [Exp.toV, listOf]

/-! ## Sequences -/

theorem sim_list {n : Nat} (H : ∀ m, m < n → SimAt X0 P A B m) {env : Nat} {ρ : Env} (es : List Exp) (hok : Exp.Oks es) (he : EnvAt W env ρ)
    (h : StRel X0 A W st s) : Sim X0 A (VRels A) W s (evalArgs (run P) env (Exp.toVs es) s) (evalList B n ρ es st) := by
  induction es generalizing n W st s with
  | nil =>
    cases n with
    | zero => simp only [evalList]; trivial
    | succ n => simp only [evalList]; exact Sim.ret .nil h
  | cons e es ih =>
    cases n with
    | zero => simp only [evalList]; trivial
    | succ n =>
      simp only [evalList, Exp.toVs, evalArgs]
      have hok := oks_cons hok
      refine Sim.bind (H n (Nat.lt_succ_self n) hok.1 he h) fun W' s' v w st' ha hv h' => ?_
      refine Sim.bind (ih (fun m hm => H m (by omega)) hok.2 (he.mono ha.le) h') fun W2 s2 vs ws st2 ha2 hvs h2 => ?_
      exact Sim.ret (.cons (hv.mono ha2.le) hvs) h2

theorem sim_body {n : Nat} (H : ∀ m, m < n → SimAt X0 P A B m) {env : Nat} {ρ : Env} (es : List Exp) (hok : Exp.Oks es) (he : EnvAt W env ρ)
    (h : StRel X0 A W st s) : Sim X0 A (VRel A) W s (evalSeq (run P) env (Exp.toVs es) s) (evalBody B n ρ es st) := by
  induction es generalizing n W st s with
  | nil => cases n <;> simp only [evalBody] <;> trivial
  | cons e es ih =>
    cases n with
    | zero => simp only [evalBody]; trivial
    | succ n =>
      have hok := oks_cons hok
      cases es with
      | nil =>
        simp only [evalBody, Exp.toVs, evalSeq]
        exact H n (Nat.lt_succ_self n) hok.1 he h
      | cons e2 es =>
        simp only [evalBody, Exp.toVs, evalSeq]
        refine Sim.bind (H n (Nat.lt_succ_self n) hok.1 he h) fun W' s' v w st' ha hv h' => ?_
        exact ih (fun m hm => H m (by omega)) hok.2 (he.mono ha.le) h'

theorem sim_and {n : Nat} (H : ∀ m, m < n → SimAt X0 P A B m) {env : Nat} {ρ : Env} (es : List Exp) (hok : Exp.Oks es) (he : EnvAt W env ρ)
    (h : StRel X0 A W st s) : Sim X0 A (VRel A) W s (Pscm.Ev.evalAnd (run P) env (Exp.toVs es) s) (evalAnd B n ρ es st) := by
  induction es generalizing n W st s with
  | nil =>
    cases n with
    | zero => simp only [evalAnd]; trivial
    | succ n => simp only [evalAnd]; exact Sim.ret rfl h
  | cons e es ih =>
    cases n with
    | zero => simp only [evalAnd]; trivial
    | succ n =>
      have hok := oks_cons hok
      cases es with
      | nil =>
        simp only [evalAnd, Exp.toVs, Pscm.Ev.evalAnd]
        exact H n (Nat.lt_succ_self n) hok.1 he h
      | cons e2 es =>
        simp only [evalAnd, Exp.toVs, Pscm.Ev.evalAnd]
        refine Sim.bind (H n (Nat.lt_succ_self n) hok.1 he h) fun W' s' v w st' ha hv h' => ?_
        simp only [hv.truthy]
        cases ht : v.isTrue with
        | true =>
          simp only [if_true]
          exact ih (fun m hm => H m (by omega)) hok.2 (he.mono ha.le) h'
        | false =>
          have : v = .bool false := by
            unfold Val.isTrue at ht
            split at ht
            · rfl
            · cases ht
          subst this
          simp only [Bool.false_eq_true, if_false]
          exact Sim.ret rfl h'

theorem sim_or {n : Nat} (H : ∀ m, m < n → SimAt X0 P A B m) {env : Nat} {ρ : Env} (es : List Exp) (hok : Exp.Oks es) (he : EnvAt W env ρ)
    (h : StRel X0 A W st s) : Sim X0 A (VRel A) W s (Pscm.Ev.evalOr (run P) env (Exp.toVs es) s) (evalOr B n ρ es st) := by
  induction es generalizing n W st s with
  | nil =>
    cases n with
    | zero => simp only [evalOr]; trivial
    | succ n => simp only [evalOr]; exact Sim.ret rfl h
  | cons e es ih =>
    cases n with
    | zero => simp only [evalOr]; trivial
    | succ n =>
      have hok := oks_cons hok
      cases es with
      | nil =>
        simp only [evalOr, Exp.toVs, Pscm.Ev.evalOr]
        exact H n (Nat.lt_succ_self n) hok.1 he h
      | cons e2 es =>
        simp only [evalOr, Exp.toVs, Pscm.Ev.evalOr]
        refine Sim.bind (H n (Nat.lt_succ_self n) hok.1 he h) fun W' s' v w st' ha hv h' => ?_
        simp only [hv.truthy]
        cases ht : v.isTrue with
        | true =>
          simp only [if_true]
          exact Sim.ret hv h'
        | false =>
          simp only [Bool.false_eq_true, if_false]
          exact ih (fun m hm => H m (by omega)) hok.2 (he.mono ha.le) h'

theorem sim_clauses {n : Nat} (H : ∀ m, m < n → SimAt X0 P A B m) {env : Nat} {ρ : Env} {ts : List Exp} {bs : List (List Exp)} {els : List Exp}
    (hl : ts.length = bs.length) (hts : Exp.Oks ts) (hne : ∀ b ∈ bs, b ≠ []) (hbs : Exp.Okss bs) (hels : Exp.Oks els) (he : EnvAt W env ρ)
    (h : StRel X0 A W st s) :
    Sim X0 A (VRel A) W s (Pscm.Ev.evalCond (run P) env (clauses (Exp.toVs ts) (Exp.toVss bs) ++ elseClause (Exp.toVs els)) s) (evalCond B n ρ ts bs els st) := by
  induction ts generalizing n W st s bs with
  | nil =>
    cases n with
    | zero => simp only [evalCond]; trivial
    | succ n =>
      cases els with
      | nil => simp only [evalCond]; exact Sim.ret rfl h
      | cons e es =>
        simp only [evalCond, Exp.toVs]
        show Sim X0 A (VRel A) W s (evalSeq (run P) env (nodes (listOf (Exp.toVs (e :: es)))) s) _
        rw [nodes_listOf]
        exact sim_body (fun m hm => H m (by omega)) _ hels he h
  | cons t ts ih =>
    cases bs with
    | nil => cases hl
    | cons b bs =>
      cases n with
      | zero => simp only [evalCond]; trivial
      | succ n =>
        have hts := oks_cons hts
        simp only [Exp.Okss] at hbs
        have hb : b ≠ [] := hne b (.head _)
        obtain ⟨e, es, rfl⟩ : ∃ e es, b = e :: es := by
          cases b with
          | nil => exact absurd rfl hb
          | cons e es => exact ⟨e, es, rfl⟩
        have ht : t.toV ≠ .sym "else" := fun e => toV_reserved hts.1 (x := "else") (by decide) e
        have hh : e.toV ≠ .sym "=>" := fun e' => toV_reserved (oks_cons hbs.1).1 (x := "=>") (by decide) e'
        have hrun : Pscm.Ev.evalCond (run P) env (clauses (Exp.toVs (t :: ts)) (Exp.toVss ((e :: es) :: bs)) ++ elseClause (Exp.toVs els)) s =
            (run P (.eval env t.toV) >>= fun v => if truthy v = true then evalSeq (run P) env (Exp.toVs (e :: es))
              else Pscm.Ev.evalCond (run P) env (clauses (Exp.toVs ts) (Exp.toVss bs) ++ elseClause (Exp.toVs els))) s := by
          simp only [Exp.toVs, Exp.toVss, clauses, List.zipWith_cons_cons, List.cons_append, Pscm.Ev.evalCond, if_neg ht, listOf, uncons, if_neg hh, nodes, nodes_listOf]
        rw [hrun]
        simp only [evalCond]
        refine Sim.bind (H n (Nat.lt_succ_self n) hts.1 he h) fun W' s' v w st' ha hv h' => ?_
        simp only [hv.truthy]
        cases v.isTrue with
        | true => exact sim_body (fun m hm => H m (by omega)) _ hbs.1 (he.mono ha.le) h'
        | false => exact ih (fun m hm => H m (by omega)) (by simpa using hl) hts.2 (fun b hb => hne b (.tail _ hb)) hbs.2 (he.mono ha.le) h'

/-- The comparison of `case` on the keys of the semantics. -/
theorem key_eq {v : Val} {w : V} {d : Datum} (hk : v.key = some d) (hv : VRel A W v w) (c : Datum) : legacyEq w c.toV = if d = c then .yes else .no := by
  cases v <;> simp only [Val.key, Option.some.injEq, reduceCtorEq] at hk
  all_goals
    subst hk
    cases hv
    cases c <;> simp [Datum.toV, legacyEq]

theorem in_datums {v : Val} {w : V} {d : Datum} (hk : v.key = some d) (hv : VRel A W v w) (ds : List Datum) :
    inDatums w (ds.map Datum.toV) = if d ∈ ds then .yes else .no := by
  induction ds with
  | nil => rfl
  | cons c ds ih =>
    simp only [List.map_cons, inDatums, key_eq hk hv, List.mem_cons]
    by_cases h : d = c
    · simp [h]
    · simp [h, ih]

theorem sim_cases {n : Nat} (H : ∀ m, m < n → SimAt X0 P A B m) {env : Nat} {ρ : Env} {v : Val} {w : V} {d : Datum} {ds : List (List Datum)}
    {bs : List (List Exp)} {els : List Exp} (hk : v.key = some d) (hv : VRel A W v w)
    (hl : ds.length = bs.length) (hbs : Exp.Okss bs) (hels : Exp.Oks els) (he : EnvAt W env ρ) (h : StRel X0 A W st s) :
    Sim X0 A (VRel A) W s (caseClauses (run P) env w (clauses (ds.map fun l => listOf (l.map Datum.toV)) (Exp.toVss bs) ++ elseClause (Exp.toVs els)) s)
      (evalCase B n ρ d ds bs els st) := by
  induction ds generalizing n bs with
  | nil =>
    cases n with
    | zero => simp only [evalCase]; trivial
    | succ n =>
      simp only [evalCase]
      cases els with
      | nil => cases n <;> simp only [evalBody] <;> trivial
      | cons e es =>
        show Sim X0 A (VRel A) W s (evalSeq (run P) env (nodes (listOf (Exp.toVs (e :: es)))) s) _
        rw [nodes_listOf]
        exact sim_body (fun m hm => H m (by omega)) _ hels he h
  | cons l ds ih =>
    cases bs with
    | nil => cases hl
    | cons b bs =>
      cases n with
      | zero => simp only [evalCase]; trivial
      | succ n =>
        simp only [Exp.Okss] at hbs
        have hls : isList (listOf (l.map Datum.toV)) = true := by cases l <;> rfl
        have hne : listOf (l.map Datum.toV) ≠ .sym "else" := by cases l <;> simp [listOf]
        simp only [Exp.toVss, clauses, List.map_cons, List.zipWith_cons_cons, List.cons_append, caseClauses, if_neg hne, hls, if_true, nodes_listOf,
          in_datums hk hv, evalCase]
        by_cases hd : d ∈ l
        · simp only [hd, if_true]
          exact sim_body (fun m hm => H m (by omega)) _ hbs.1 he h
        · simp only [hd, if_false]
          exact ih (fun m hm => H m (by omega)) (by simpa using hl) hbs.2

/-! ## Special forms -/

theorem form_macros {x : Name} {f : Pscm.Ev.Form} (hf : formOf x = some f) : x ∉ macroNames := by
  intro hm
  simp only [macroNames, List.mem_cons, List.not_mem_nil, or_false] at hm
  rcases hm with rfl | rfl | rfl | rfl | rfl | rfl <;> cases hf

theorem run_form (h : StRel X0 A W st s) {env : Nat} {x : Name} {rest : V} {f : Pscm.Ev.Form} (hf : formOf x = some f) :
    run P (.eval env (.pair (.sym x) rest)) s = Pscm.Ev.evalForm P (run P) f env rest s := by
  rw [run_eq]
  exact evalPair_form (h.noMacro (form_macros hf)) hf

theorem sim_set {n : Nat} (H : SimAt X0 P A B n) {env : Nat} {ρ : Env} {x : Name} {e : Exp} (hvar : IsVar x) (hok : e.Ok) (he : EnvAt W env ρ)
    (h : StRel X0 A W st s) :
    Sim X0 A (VRel A) W s (run P (.eval env (listOf [.sym "set!", .sym x, e.toV])) s)
      ((eval B n ρ e st).bind fun (v, st) => (assign ρ st x v).bind fun st => .val (.unspecified, st)) := by
  have : run P (.eval env (listOf [.sym "set!", .sym x, e.toV])) s =
      (run P (.eval env e.toV) >>= fun v => (modSt fun s => assignSt s env x v) >>= fun _ => pure V.none) s := by
    show run P (.eval env (.pair (.sym "set!") (.pair (.sym x) (.pair e.toV .nil)))) s = _
    rw [run_form h (f := .set) (by decide)]
    rfl
  rw [this]
  refine Sim.bind (H hok he h) fun W' s' v w st' ha hv h' => ?_
  show Sim X0 A (VRel A) W' s' _ ((assign ρ st' x v).bind fun st => .val (.unspecified, st))
  cases hs : assign ρ st' x v with
  | unknown => trivial
  | error =>
    exfalso
    unfold assign at hs
    split at hs
    · split at hs <;> cases hs
    · split at hs <;> cases hs
  | val st2 =>
    obtain ⟨h1, h2⟩ := h'.assign hvar (he.mono ha.le) hv hs
    exact ⟨.none, _, W', rfl, h2, rfl, h1⟩

/-- A body: definitions and expressions. -/
theorem sim_lambda_body {n : Nat} (H : ∀ m, m < n → SimAt X0 P A B m) {env p : Nat} {bs : List (Name × Nat)} {ρ : Env} (body : List Exp) (hok : Exp.BodyOk body)
    (hW : W env = some (bs, p)) (hd : ∀ x ∈ defs body, ∃ l, bs.lookup x = some l) (he : EnvAt W p ρ) (h : StRel X0 A W st s) :
    Sim X0 A (VRel A) W s (evalSeq (run P) env (Exp.toVs body) s) (evalBody B n (bs ++ ρ) body st) := by
  induction body generalizing n W st s with
  | nil => cases n <;> simp only [evalBody] <;> trivial
  | cons e es ih =>
    have hplain : Exp.Oks (e :: es) →
        Sim X0 A (VRel A) W s (evalSeq (run P) env (Exp.toVs (e :: es)) s) (evalBody B n (bs ++ ρ) (e :: es) st) :=
      fun hok => sim_body H (e :: es) hok (.rib hW he) h
    cases e with
    | define x e =>
      simp only [Exp.BodyOk] at hok
      obtain ⟨hvar, heok, hne, hok⟩ := hok
      cases n with
      | zero => simp only [evalBody]; trivial
      | succ n =>
        cases es with
        | nil => exact absurd rfl hne
        | cons e2 es =>
          simp only [evalBody, Exp.toVs, evalSeq]
          cases n with
          | zero => simp only [eval]; trivial
          | succ n =>
            obtain ⟨l, hl⟩ := hd x (by simp [defs])
            have hrun : run P (.eval env (Exp.define x e).toV) s =
                (run P (.eval env e.toV) >>= fun v => (modSt fun s => defineSt s env x v) >>= fun _ => pure V.none) s := by
              show run P (.eval env (.pair (.sym "define") (.pair (.sym x) (.pair e.toV .nil)))) s = _
              rw [run_form h (f := .define) (by decide)]
              rfl
            have hdef : Sim X0 A (VRel A) W s (run P (.eval env (Exp.define x e).toV) s) (eval B (n + 1) (bs ++ ρ) (.define x e) st) := by
              rw [hrun]
              simp only [eval]
              refine Sim.bind (H n (by omega) heok (.rib hW he) h) fun W' s' v w st' ha hv h' => ?_
              show Sim X0 A (VRel A) W' s' _ ((init (bs ++ ρ) st' x v).bind fun st => .val (.unspecified, st))
              cases hs : init (bs ++ ρ) st' x v with
              | unknown => trivial
              | error => unfold init at hs; split at hs <;> cases hs
              | val st2 =>
                obtain ⟨h1, h2⟩ := h'.init (ha.le _ _ hW) hl hv hs
                exact ⟨.none, _, W', rfl, h2, rfl, h1⟩
            refine Sim.bind hdef fun W' s' v w st' ha hv h' => ?_
            exact ih (fun m hm => H m (by omega)) hok (ha.le _ _ hW) (fun y hy => hd y (by simp only [defs, List.mem_cons]; exact .inr hy)) (he.mono ha.le) h'
    | _ => exact hplain (by simpa only [Exp.BodyOk, Exp.Oks] using hok)

/-! ## Procedure calls -/

/-- The values of the variables of a procedure: the arguments, with the list of the remaining ones for the rest parameter. -/
def frameVals (ps : List Name) (rest : Option Name) (ws : List V) : List V :=
  match rest with
  | none => ws
  | some _ => ws.take ps.length ++ [listOf (ws.drop ps.length)]

def frameVs (ps : List Name) (rest : Option Name) (vs : List Val) : List Val :=
  match rest with
  | none => vs
  | some _ => vs.take ps.length ++ [Val.list (vs.drop ps.length)]

theorem list_rel {vs ws} (h : VRels A W vs ws) : VRel A W (Val.list vs) (listOf ws) := by
  induction h with
  | nil => rfl
  | cons hv _ ih => exact ⟨_, _, rfl, hv, ih⟩

theorem VRels.append {vs ws vs' ws'} (h : VRels A W vs ws) (k : VRels A W vs' ws') : VRels A W (vs ++ vs') (ws ++ ws') := by
  induction h with
  | nil => exact k
  | cons hv _ ih => exact .cons hv ih

theorem VRels.take {vs ws} (h : VRels A W vs ws) (n : Nat) : VRels A W (vs.take n) (ws.take n) := by
  induction h generalizing n with
  | nil => simpa using VRels.nil
  | cons hv _ ih =>
    cases n with
    | zero => exact .nil
    | succ n => exact .cons hv (ih n)

theorem VRels.drop {vs ws} (h : VRels A W vs ws) (n : Nat) : VRels A W (vs.drop n) (ws.drop n) := by
  induction h generalizing n with
  | nil => simpa using VRels.nil
  | cons hv h ih =>
    cases n with
    | zero => exact .cons hv h
    | succ n => exact ih n

theorem VRels.get {vs ws} (h : VRels A W vs ws) {i : Nat} {v w} (hv : vs[i]? = some v) (hw : ws[i]? = some w) : VRel A W v w := by
  induction h generalizing i with
  | nil => simp at hv
  | cons hr _ ih =>
    cases i with
    | zero => simp at hv hw; subst hv hw; exact hr
    | succ i => exact ih (by simpa using hv) (by simpa using hw)

theorem frame_rel {ps : List Name} {rest : Option Name} {vs ws} (h : VRels A W vs ws) : VRels A W (frameVs ps rest vs) (frameVals ps rest ws) := by
  cases rest with
  | none => exact h
  | some r => exact (h.take _).append (.cons (list_rel (h.drop _)) .nil)

theorem VRels.noMacro {vs ws} (h : VRels A W vs ws) : ∀ w ∈ ws, isMacro w = false := by
  induction h with
  | nil => simp
  | cons hv _ ih =>
    intro w hw
    rcases List.mem_cons.1 hw with rfl | hw
    · exact hv.noMacro
    · exact ih w hw

theorem bindOwn_upd (pe : Nat) (x : Name) (w : V) (s : St σ) :
    (bindOwn pe x w : EM σ Unit) s = some (.ok (), { s with frames := updFrame s.frames pe (upsert x w) }) := rfl

/-- Binding the parameters while the arguments are evaluated. -/
theorem sim_params {n : Nat} (H : ∀ m, m < n → SimAt X0 P A B m) {env pe p : Nat} {ρ : Env} (ps : List Name) (rest : Option Name) (args : List Exp)
    (hok : Exp.Oks args) (he : EnvAt W env ρ) (h : StRel X0 A W st s) (hpe : W pe = none) (h0 : 0 < pe) {es : List (Name × V)}
    (hf : s.frames[pe]? = some ⟨es, some p, none⟩) (hnd : (ps ++ rest.toList).Nodup) (hfr : ∀ x ∈ ps ++ rest.toList, x ∉ es.map Prod.fst) :
    match evalList B n ρ args st with
    | .unknown => True
    | .error o => ∃ k a s', bindParams (run P) env pe (ps.map V.sym) rest (Exp.toVs args) s = some (.stop (.err X0.target k a), s') ∧
      ((rest = none → args.length ≤ ps.length) → Left X0 A o s')
    | .val (vs, st') =>
      vs.length = args.length ∧
      (rest = none → vs.length ≠ ps.length →
        ∃ k a s', bindParams (run P) env pe (ps.map V.sym) rest (Exp.toVs args) s = some (.stop (.err X0.target k a), s') ∧
          (args.length ≤ ps.length → Left X0 A (some st') s')) ∧
      (CountOk ps rest vs.length → ∃ s' W' ws, bindParams (run P) env pe (ps.map V.sym) rest (Exp.toVs args) s = some (.ok (), s') ∧
        AfterX (· = pe) W W' s s' ∧ VRels A W' vs ws ∧ StRel X0 A W' st' s' ∧
        s'.frames[pe]? = some ⟨((ps ++ rest.toList).zip (frameVals ps rest ws)).reverse ++ es, some p, none⟩) := by
  induction args generalizing n W st s ps es with
  | nil =>
    cases n with
    | zero => simp only [evalList]
    | succ n =>
      simp only [evalList]
      refine ⟨rfl, ?_, ?_⟩
      · intro hr hl
        subst hr
        cases ps with
        | nil => exact absurd rfl hl
        | cons x ps =>
          simp only [List.map_cons, Exp.toVs, bindParams]
          exact ⟨_, _, _, evalError_apply h.throws, fun _ => h.left⟩
      · intro hc
        cases ps with
        | cons x ps => cases rest <;> simp [CountOk] at hc
        | nil =>
          cases rest with
          | none => exact ⟨s, W, [], rfl, .refl, .nil, h, by simpa [frameVals] using hf⟩
          | some r =>
            simp only [List.map_nil, Exp.toVs, bindParams, evalArgs]
            refine ⟨_, W, [], rfl, ?_, .nil, h.bindOwn (x := r) (w := .nil) hpe h0 rfl, ?_⟩
            · refine ⟨World.le_refl W, ?_, fun _ _ h => h, fun i _ _ _ hx => ?_⟩
              · simp [insertOwn, updFrame_length']
              · simp only [insertOwn, getElem?_upd_ne _ _ hx]
            · simp only [insertOwn, getElem?_upd_self _ _ hf]
              rw [upsert_fresh (hfr r (by simp))]
              simp [frameVals, listOf]
  | cons e args ih =>
    cases n with
    | zero => simp only [evalList]
    | succ n =>
      have hok := oks_cons hok
      cases ps with
      | nil =>
        cases rest with
        | none =>
          have herr : ∃ k a s', bindParams (run P) env pe (([] : List Name).map V.sym) none (Exp.toVs (e :: args)) s = some (.stop (.err X0.target k a), s') := by
            simp only [List.map_nil, Exp.toVs, bindParams]
            exact ⟨_, _, _, evalError_apply h.throws⟩
          have hs := sim_list H (e :: args) (by simp only [Exp.Oks]; exact hok) he h
          cases hr : evalList B (n + 1) ρ (e :: args) st with
          | unknown => trivial
          | error o =>
            obtain ⟨k, a, s', herr⟩ := herr
            exact ⟨k, a, s', herr, fun hf => absurd (hf rfl) (by simp)⟩
          | val q =>
            obtain ⟨vs, st'⟩ := q
            rw [hr] at hs
            obtain ⟨ws, s', W', h1, h2, h3, h4⟩ := hs
            have hlen : vs.length = (e :: args).length := by
              have e1 := h3.length
              have := evalArgs_length h1
              rw [toVs_length] at this
              omega
            refine ⟨hlen, fun _ _ => ?_, fun hc => ?_⟩
            · obtain ⟨k, a, s', herr⟩ := herr
              exact ⟨k, a, s', herr, fun hf => absurd hf (by simp)⟩
            simp only [CountOk, List.length_nil] at hc
            rw [hlen] at hc
            cases hc
        | some r =>
          have hs := sim_list H (e :: args) (by simp only [Exp.Oks]; exact hok) he h
          have hb : bindParams (run P) env pe (([] : List Name).map V.sym) (some r) (Exp.toVs (e :: args)) s =
              (evalArgs (run P) env (Exp.toVs (e :: args)) >>= fun vs => bindOwn pe r (listOf vs)) s := rfl
          rw [hb]
          cases hr : evalList B (n + 1) ρ (e :: args) st with
          | unknown => trivial
          | error o =>
            rw [hr] at hs
            obtain ⟨k, a, s', hs, ho⟩ := hs
            exact ⟨k, a, s', by rw [bind_apply, hs], fun _ => ho⟩
          | val q =>
            obtain ⟨vs, st'⟩ := q
            rw [hr] at hs
            obtain ⟨ws, s1, W', h1, h2, h3, h4⟩ := hs
            have hlen : vs.length = (e :: args).length := by
              have e1 := h3.length
              have := evalArgs_length h1
              rw [toVs_length] at this
              omega
            refine ⟨hlen, (fun hr => by cases hr), fun _ => ?_⟩
            have hlt : pe < s.frames.length := (List.getElem?_eq_some_iff.1 hf).1
            have hpe1 : W' pe = none := h2.fresh pe hlt hpe
            have hf1 : s1.frames[pe]? = some ⟨es, some p, none⟩ := by rw [h2.keep pe h0 hlt hpe (fun h => h), hf]
            refine ⟨_, W', ws, by rw [bind_apply, h1]; rfl, ?_, h3, h4.bindOwn (x := r) (w := listOf ws) hpe1 h0 (list_rel h3).noMacro, ?_⟩
            · refine (h2.weaken fun _ h => h.elim).trans ⟨World.le_refl W', ?_, fun _ _ h => h, fun i _ _ _ hx => ?_⟩
              · simp [insertOwn, updFrame_length']
              · simp only [insertOwn, getElem?_upd_ne _ _ hx]
            · simp only [insertOwn, getElem?_upd_self _ _ hf1]
              rw [upsert_fresh (hfr r (by simp))]
              simp [frameVals]
      | cons x ps =>
        have hs := H n (Nat.lt_succ_self n) hok.1 he h
        have hb : bindParams (run P) env pe ((x :: ps).map V.sym) rest (Exp.toVs (e :: args)) s =
            (run P (.eval env e.toV) >>= fun v => bindOwn pe x v >>= fun _ => bindParams (run P) env pe (ps.map V.sym) rest (Exp.toVs args)) s := by
          cases rest <;> rfl
        rw [hb]
        simp only [evalList]
        cases hr : eval B n ρ e st with
        | unknown => simp only [Ans.bind]
        | error o =>
          rw [hr] at hs
          obtain ⟨k, a, s', hs, ho⟩ := hs
          exact ⟨k, a, s', by rw [bind_apply, hs], fun _ => ho⟩
        | val q =>
          obtain ⟨v, st1⟩ := q
          rw [hr] at hs
          obtain ⟨w, s1, W1, h1, h2, h3, h4⟩ := hs
          have hlt : pe < s.frames.length := (List.getElem?_eq_some_iff.1 hf).1
          have hpe1 : W1 pe = none := h2.fresh pe hlt hpe
          have hf1 : s1.frames[pe]? = some ⟨es, some p, none⟩ := by rw [h2.keep pe h0 hlt hpe (fun h => h), hf]
          have h5 := h4.bindOwn (x := x) (w := w) hpe1 h0 h3.noMacro
          simp only [List.cons_append, List.nodup_cons] at hnd
          have hf2 : ({ s1 with frames := updFrame s1.frames pe (upsert x w) } : St σ).frames[pe]? = some ⟨(x, w) :: es, some p, none⟩ := by
            simp only [getElem?_upd_self _ _ hf1]
            rw [upsert_fresh (hfr x (by simp))]
          have hih := ih (n := n) (fun m hm => H m (by omega)) ps hok.2 (he.mono h2.le) h5 hpe1 hf2 hnd.2 (by
            intro y hy
            simp only [List.map_cons, List.mem_cons, not_or]
            refine ⟨?_, hfr y (by simp only [List.cons_append, List.mem_cons]; exact .inr hy)⟩
            rintro rfl
            exact hnd.1 hy)
          have hx : ∀ r, bindParams (run P) env pe (ps.map V.sym) rest (Exp.toVs args) { s1 with frames := updFrame s1.frames pe (upsert x w) } = r →
              (run P (.eval env e.toV) >>= fun v => bindOwn pe x v >>= fun _ => bindParams (run P) env pe (ps.map V.sym) rest (Exp.toVs args)) s = r := by
            intro r hr
            rw [bind_apply, h1]
            simp only [bind_apply, bindOwn_upd]
            exact hr
          simp only [Ans.bind]
          cases hr2 : evalList B n ρ args st1 with
          | unknown => trivial
          | error o =>
            rw [hr2] at hih
            obtain ⟨k, a, s', hih, ho⟩ := hih
            exact ⟨k, a, s', hx _ hih, fun hf => ho fun hr => by simpa using hf hr⟩
          | val q =>
            obtain ⟨vs, st2⟩ := q
            rw [hr2] at hih
            obtain ⟨k1, k2, k3⟩ := hih
            refine ⟨by simp [k1], fun hr hl => ?_, fun hc => ?_⟩
            · obtain ⟨k, a, s', hih, ho⟩ := k2 hr (by simpa using hl)
              exact ⟨k, a, s', hx _ hih, fun hf => ho (by simpa using hf)⟩
            · obtain ⟨s2, W2, ws, m1, m2, m3, m4, m5⟩ := k3 (by cases rest <;> simpa [CountOk] using hc)
              refine ⟨s2, W2, w :: ws, hx _ m1, ?_, .cons (h3.mono m2.le) m3, m4, ?_⟩
              · refine ((h2.weaken fun _ h => h.elim).trans ⟨World.le_refl W1, ?_, fun _ _ h => h, fun i _ _ _ hx => ?_⟩).trans m2
                · simp [updFrame_length']
                · simp only [getElem?_upd_ne _ _ hx]
              · rw [m5]
                cases rest <;> simp [frameVals]

/-- A call that is an error. -/
theorem Sim.wrong {α : Type} (h : StRel X0 A W st s) {m : String} {r : Ans α} : Sim X0 A (VRel A) W s ((evalError m : EM σ V) s) (r.wrong : Ans (Val × Store)) := by
  cases r with
  | unknown => trivial
  | _ => exact ⟨_, _, _, evalError_apply h.throws, .open⟩

theorem zip_has {xs : List Name} {ls : List Nat} (hl : ls.length = xs.length) {x : Name} (hx : x ∈ xs) : ∃ l, (xs.zip ls).lookup x = some l := by
  cases h : (xs.zip ls).lookup x with
  | some l => exact ⟨l, rfl⟩
  | none =>
    rw [lookup_none_iff, List.map_fst_zip (by omega)] at h
    exact absurd hx h

/-- A call of a value. -/
theorem sim_call (hI : Implements X0 P A B) {n : Nat} (H : ∀ m, m < n → SimAt X0 P A B m) {env : Nat} {ρ : Env} {f : Val} {w : V} {args : List Exp}
    (hok : Exp.Oks args) (he : EnvAt W env ρ) (h : StRel X0 A W st s) (hf : VRel A W f w) (hc : callable B f = true) :
    Sim X0 A (VRel A) W s (run P (.eval env (.pair w (listOf (Exp.toVs args)))) s)
      (if misfit args.length f then (evalList B n ρ args st).wrong else (evalList B n ρ args st).bind fun (vs, st) => apply B n f vs st) := by
  cases f with
  | prim x =>
    obtain ⟨a, hA, rfl⟩ := hf
    have hd : B.dom x = true := hc
    obtain ⟨n1, n2, n3, n4⟩ := hI.plain hA hd
    have hrun : run P (.eval env (.pair (.func x a) (listOf (Exp.toVs args)))) s =
        (evalArgs (run P) env (Exp.toVs args) >>= fun vs => callFunc P (run P) x a vs) s := by
      rw [run_eq]
      show evalFuncCall P (run P) env x a (listOf (Exp.toVs args)) s = _
      unfold evalFuncCall
      rw [if_neg n1, if_neg (by simp [n2, n3]), if_neg (by simp [n4]), nodes_listOf]
    rw [hrun, if_neg (by simp [misfit])]
    refine Sim.bind (sim_list H args hok he h) fun W' s' vs ws st' ha hvs h' => ?_
    cases n with
    | zero => simp only [apply]; trivial
    | succ n =>
      simp only [apply, hd, if_true]
      cases hap : B.ap x vs with
      | unknown => trivial
      | error =>
        obtain ⟨k, d, hk⟩ := hI.error (s := s') hA hd hap hvs h'.throws
        exact ⟨k, d, s', hk, h'.left⟩
      | val v =>
        obtain ⟨w, y, hw, hr, hy⟩ := hI.value (s := s') hA hd hap hvs h'.ext
        rw [hw]
        exact Sim.print hr h' hy
  | clo ps rest body ρ' =>
    obtain ⟨e', rfl, hat, hlam⟩ := hf
    simp only [Exp.Ok] at hlam
    obtain ⟨_, hnd, hne, hbody⟩ := hlam
    obtain ⟨es', pp, hfe⟩ := h.frame hat
    have hlt := hat.lt h
    let s1 : St σ := { s with frames := s.frames ++ [⟨[], some e', none⟩] }
    have h1 : StRel X0 A W st s1 := h.push hlt
    have hfr : W s.frames.length = none := by
      cases hw : W s.frames.length with
      | none => rfl
      | some q => have := h.lt (bs := q.1) (p := q.2) hw; omega
    have hrun : run P (.eval env (.pair (.proc (paramList ps rest) (listOf (Exp.toVs body)) e') (listOf (Exp.toVs args)))) s =
        (bindParams (run P) env s.frames.length (ps.map V.sym) rest (Exp.toVs args) >>= fun _ => evalSeq (run P) s.frames.length (Exp.toVs body)) s1 := by
      rw [run_eq]
      show applyProc (run P) env (paramList ps rest) (listOf (Exp.toVs body)) e' (nodes (listOf (Exp.toVs args))) s = _
      unfold applyProc
      rw [splitParams_paramList, bind_apply, newEnv_apply hfe]
      simp only [nodes_listOf]
      rfl
    rw [hrun]
    have hsp := sim_params (p := e') (es := []) H ps rest args hok he h1 hfr (by omega) (by simp [s1]) (List.nodup_append.1 hnd).1 (by simp)
    by_cases hmis : misfit args.length (.clo ps rest body ρ') = true
    · rw [if_pos hmis]
      cases rest with
      | some r => cases hmis
      | none =>
        simp only [misfit, decide_eq_true_eq] at hmis
        cases hr : evalList B n ρ args st with
        | unknown => trivial
        | error o =>
          rw [hr] at hsp
          obtain ⟨k, a, s2, hsp, _⟩ := hsp
          exact ⟨k, a, s2, by rw [bind_apply, hsp], .open⟩
        | val q =>
          rw [hr] at hsp
          obtain ⟨k0, k2, _⟩ := hsp
          obtain ⟨k, a, s2, hk, _⟩ := k2 rfl (by omega)
          exact ⟨k, a, s2, by rw [bind_apply, hk], .open⟩
    rw [if_neg hmis]
    have hfits : rest = none → args.length ≤ ps.length := by
      rintro rfl
      simpa [misfit] using hmis
    cases hr : evalList B n ρ args st with
    | unknown => trivial
    | error o =>
      rw [hr] at hsp
      obtain ⟨k, a, s2, hsp, ho⟩ := hsp
      exact ⟨k, a, s2, by rw [bind_apply, hsp], ho hfits⟩
    | val q =>
      obtain ⟨vs, st'⟩ := q
      rw [hr] at hsp
      obtain ⟨_, k2, k3⟩ := hsp
      show Sim X0 A (VRel A) W s _ (apply B n (.clo ps rest body ρ') vs st')
      have hgood : ∀ n', n' < n → CountOk ps rest vs.length →
          Sim X0 A (VRel A) W s ((bindParams (run P) env s.frames.length (ps.map V.sym) rest (Exp.toVs args) >>= fun _ =>
            evalSeq (run P) s.frames.length (Exp.toVs body)) s1)
            (evalBody B n' (enter (ps ++ rest.toList) (frameVs ps rest vs) body ρ' st').1 body (enter (ps ++ rest.toList) (frameVs ps rest vs) body ρ' st').2) := by
        intro n' hn' hcnt
        obtain ⟨s2, W2, ws, m1, m2, m3, m4, m5⟩ := k3 hcnt
        have hlen2 : s.frames.length < s1.frames.length := by simp [s1]
        have hfv : (frameVs ps rest vs).length = (ps ++ rest.toList).length := by
          cases rest with
          | none => simpa [frameVs, CountOk] using hcnt
          | some r =>
            have : ps.length ≤ vs.length := hcnt
            simp [frameVs, Nat.min_eq_left this]
        have hfw : (frameVals ps rest ws).length = (ps ++ rest.toList).length := by
          rw [← hfv, (frame_rel (ps := ps) (rest := rest) m3).length]
        obtain ⟨W3, r1, r2, r3, r4, r5⟩ := m4.register (pe := s.frames.length) (p := e') (xs := ps ++ rest.toList) (ys := defs body) (vs := frameVs ps rest vs)
          (ws := frameVals ps rest ws) (m2.fresh _ hlen2 hfr) (by omega) (by simpa using m5) hnd hfv hfw (ρ := ρ') (hat.mono m2.le)
          (fun W3 hle _ i v w hv hw => .inr (((frame_rel m3).get hv hw).mono hle))
        have hb := sim_lambda_body (B := B) (n := n') (fun m hm => H m (by omega)) body hbody r5
          (fun x hx => zip_has (by simp) (List.mem_append.2 (.inr hx))) (hat.mono (m2.le.trans r1)) r4
        rw [bind_apply, m1]
        simp only []
        have haft : After W W3 s s2 := by
          refine ⟨m2.le.trans r1, by have := m2.len; omega, fun i hi hw => ?_, fun i hi0 hi hw _ => ?_⟩
          · exact r2 i (by omega) (m2.fresh i (by omega) hw)
          · rw [m2.keep i hi0 (by omega) hw (by omega)]
            simp only [s1]
            rw [List.getElem?_append_left hi]
        have hb : Sim X0 A (VRel A) W3 s2 (evalSeq (run P) s.frames.length (Exp.toVs body) s2) (evalBody B n'
            (enter (ps ++ rest.toList) (frameVs ps rest vs) body ρ' st').1 body (enter (ps ++ rest.toList) (frameVs ps rest vs) body ρ' st').2) := hb
        cases hans : evalBody B n' (enter (ps ++ rest.toList) (frameVs ps rest vs) body ρ' st').1 body (enter (ps ++ rest.toList) (frameVs ps rest vs) body ρ' st').2 with
        | unknown => trivial
        | error o => rw [hans] at hb; exact hb
        | val q =>
          rw [hans] at hb
          obtain ⟨b, s3, W4, t1, t2, t3, t4⟩ := hb
          exact ⟨b, s3, W4, t1, haft.trans t2, t3, t4⟩
      cases n with
      | zero => simp only [apply]; trivial
      | succ n =>
        simp only [apply]
        cases rest with
        | none =>
          simp only []
          by_cases hl : vs.length = ps.length
          · rw [if_pos hl]
            have := hgood n (Nat.lt_succ_self n) hl
            simpa [frameVs] using this
          · rw [if_neg hl]
            obtain ⟨k, a, s2, hk, ho⟩ := k2 rfl hl
            exact ⟨k, a, s2, by rw [bind_apply, hk], ho (hfits rfl)⟩
        | some r =>
          simp only []
          by_cases hl : ps.length ≤ vs.length
          · rw [if_pos hl]
            exact hgood n (Nat.lt_succ_self n) hl
          · rw [if_neg hl]
            trivial
  | sym x => cases hc
  | pair a d => cases hc
  | undefined => cases hc
  | unassigned => cases hc
  | unspecified =>
    cases hf
    have hrun : run P (.eval env (.pair .none (listOf (Exp.toVs args)))) s = (evalError "not supported expression type" : EM σ V) s := by rw [run_eq]; rfl
    rw [hrun, if_pos (by rfl : misfit args.length .unspecified = true)]
    exact Sim.wrong h
  | _ =>
    cases hf
    cases args with
    | nil =>
      rw [if_neg (by simp [misfit])]
      cases n with
      | zero => simp only [evalList]; trivial
      | succ n => simp only [evalList, Ans.bind, apply]; trivial
    | cons e es =>
      rw [if_pos (by simp [misfit])]
      rw [run_eq]
      have hne : listOf (Exp.toVs (e :: es)) ≠ .nil := by simp [Exp.toVs, listOf]
      generalize listOf (Exp.toVs (e :: es)) = rest at hne
      show Sim X0 A (VRel A) W s ((if rest = .nil then _ else (evalError "invalid expression") : EM σ V) s) _
      rw [if_neg hne]
      exact Sim.wrong h

end Pscm.Ref
