import Verif.RefSim3
import Verif.EvCallProps
import Verif.EvNamedLet
import Verif.RefMap
import Verif.RefDo
import Verif.RefQuasi
/-! # The interpreter simulates the reference semantics: the main lemma -/
namespace Pscm.Ref
open Pscm.Ev hiding Name Form evalForm
open Pscm.Ev.EM (modSt)
variable {σ : Type} {P : Prims σ} {A : Name → Int → Prop} {B : Builtins} {W W' : World} {st : Store} {s s' : St σ} {X0 : Fixed σ}

theorem run_congr {env : Nat} {x y : V} (h : ∀ o s', Evals P env x s o s' ↔ Evals P env y s o s') : run P (.eval env x) s = run P (.eval env y) s := by
  cases hx : run P (.eval env x) s with
  | none =>
    cases hy : run P (.eval env y) s with
    | none => rfl
    | some q =>
      have := (h q.1 q.2).2 (evals_iff.2 hy)
      rw [evals_iff, hx] at this
      cases this
  | some q =>
    have := (h q.1 q.2).1 (evals_iff.2 hx)
    rw [evals_iff] at this
    rw [this]

theorem run_congr2 {env env' : Nat} {x y : V} {t : St σ} (h : ∀ o s', Evals P env x s o s' ↔ Evals P env' y t o s') :
    run P (.eval env x) s = run P (.eval env' y) t := by
  cases hx : run P (.eval env x) s with
  | none =>
    cases hy : run P (.eval env' y) t with
    | none => rfl
    | some q =>
      have := (h q.1 q.2).2 (evals_iff.2 hy)
      rw [evals_iff, hx] at this
      cases this
  | some q =>
    have := (h q.1 q.2).1 (evals_iff.2 hx)
    rw [evals_iff] at this
    rw [this]

theorem zip_names {xs : List Name} {es : List V} (h : xs.length = es.length) : ((xs.zip es).map fun b => V.sym b.1) = xs.map V.sym := by
  induction xs generalizing es with
  | nil => rfl
  | cons x xs ih =>
    cases es with
    | nil => cases h
    | cons e es => simp only [List.zip_cons_cons, List.map_cons, ih (by simpa using h)]

theorem zip_exprs {xs : List Name} {es : List V} (h : xs.length = es.length) : (xs.zip es).map Prod.snd = es := by
  induction xs generalizing es with
  | nil => cases es with
    | nil => rfl
    | cons e es => cases h
  | cons x xs ih =>
    cases es with
    | nil => cases h
    | cons e es => simp only [List.zip_cons_cons, List.map_cons, ih (by simpa using h)]

theorem paramList_none (xs : List Name) : paramList xs none = listOf (xs.map V.sym) := by
  induction xs with
  | nil => rfl
  | cons x xs ih => simp only [paramList, ih, List.map_cons, listOf]

theorem toVs_ne {body : List Exp} (h : body ≠ []) : Exp.toVs body ≠ [] := by
  cases body with
  | nil => exact absurd rfl h
  | cons e es => simp [Exp.toVs]

theorem toVs_append (as bs : List Exp) : Exp.toVs (as ++ bs) = Exp.toVs as ++ Exp.toVs bs := by
  induction as with
  | nil => rfl
  | cons a as ih => simp [Exp.toVs, ih]

theorem run_let (h : StRel X0 A W st s) {env : Nat} {xs : List Name} {es body : List Exp} (hl : xs.length = es.length) (hb : body ≠ []) :
    run P (.eval env (Exp.toV (.let_ xs es body))) s = run P (.eval env (Exp.toV (.app (.lam xs none body) es))) s := by
  have hl' : xs.length = (Exp.toVs es).length := by rw [toVs_length]; exact hl
  apply run_congr
  intro o s'
  have := c48_let (P := P) (env := env) (bs := xs.zip (Exp.toVs es)) (body := Exp.toVs body) (s' := s') (o := o) (h.noMacro (x := "let") (by decide)) (toVs_ne hb)
  rw [zip_names hl', zip_exprs hl', ← paramList_none] at this
  exact this

/-- The head of an expression in evaluation. -/
theorem run_head {env : Nat} {a d rest : V} :
    run P (.eval env (.pair (.pair a d) rest)) s = (run P (.eval env (.pair a d)) >>= fun f => run P (.eval env (.pair f rest))) s := by
  rw [run_eq]
  rfl

theorem run_const {env : Nat} (c : Const) : run P (.eval env c.toV) s = some (.ok c.toV, s) := by
  rw [run_eq]
  cases c <;> rfl

theorem run_self {env : Nat} {b : Bool} : run P (.eval env (.bool b)) s = some (.ok (.bool b), s) := by
  rw [run_eq]
  rfl

theorem updFrame_id (fr : List Frame) (e : Nat) : updFrame fr e (fun es => es) = fr := by
  apply List.ext_getElem?
  intro i
  rw [getElem?_updFrame]
  cases fr[i]? with
  | none => rfl
  | some f => by_cases hi : i = e <;> simp [hi]

/-- Parameters bound to `#f`. -/
theorem bind_false {env pe p : Nat} (xs : List Name) (hnd : xs.Nodup) {es : List (Name × V)} (hf : s.frames[pe]? = some ⟨es, some p, none⟩)
    (hfr : ∀ x ∈ xs, x ∉ es.map Prod.fst) :
    bindParams (run P) env pe (xs.map V.sym) none (xs.map fun _ => V.bool false) s =
      some (.ok (), { s with frames := updFrame s.frames pe fun es => (xs.zip (xs.map fun _ => V.bool false)).reverse ++ es }) := by
  induction xs generalizing s es with
  | nil =>
    simp only [List.map_nil, bindParams, List.zip_nil_left, List.reverse_nil, List.nil_append, updFrame_id]
    rfl
  | cons x xs ih =>
    simp only [List.nodup_cons] at hnd
    simp only [List.map_cons, bindParams, bind_apply, run_self, bindOwn_upd]
    have hx := hfr x (by simp)
    rw [ih hnd.2 (es := (x, .bool false) :: es) (by rw [getElem?_upd_self _ _ hf, upsert_fresh hx]) (by
      intro y hy
      simp only [List.map_cons, List.mem_cons, not_or]
      refine ⟨?_, hfr y (.tail _ hy)⟩
      rintro rfl
      exact hnd.1 hy)]
    congr 3
    simp only []
    rw [updFrame_updFrame]
    rw [updFrame_congr _ _ _ _ _ hf]
    simp only [Function.comp, upsert_fresh hx]
    simp

/-- The initialisations and the body of `letrec`. -/
theorem sim_inits {n n' : Nat} (H : ∀ m, m < n → SimAt X0 P A B m) (H' : ∀ m, m < n' → SimAt X0 P A B m) {env : Nat} {ρ : Env} (xs : List Name) (es body : List Exp)
    (hvar : ∀ x ∈ xs, IsVar x) (hok : Exp.Oks es) (hb : body ≠ []) (hbok : Exp.BodyOk body) {p : Nat} {bs : List (Name × Nat)} (hW : W env = some (bs, p))
    (hd : ∀ x ∈ defs body, ∃ l, bs.lookup x = some l) (he : EnvAt W p ρ) (h : StRel X0 A W st s) (hl : xs.length = es.length) :
    Sim X0 A (VRel A) W s (evalSeq (run P) env (Exp.toVs (((xs.zip es).map fun q => Exp.set q.1 q.2) ++ body)) s)
      ((evalInits B n (bs ++ ρ) xs es st).bind fun (_, st) => evalBody B n' (bs ++ ρ) body st) := by
  induction xs generalizing n W st s es with
  | nil =>
    cases es with
    | cons e es => cases hl
    | nil =>
      cases n with
      | zero => simp only [evalInits]; trivial
      | succ n =>
        simp only [evalInits, List.zip_nil_left, List.map_nil, List.nil_append]
        exact sim_lambda_body H' body hbok hW hd he h
  | cons x xs ih =>
    cases es with
    | nil => cases hl
    | cons e es =>
      cases n with
      | zero => simp only [evalInits]; trivial
      | succ n =>
        have hok := oks_cons hok
        have hsplit : evalSeq (run P) env (Exp.toVs ((((x :: xs).zip (e :: es)).map fun q => Exp.set q.1 q.2) ++ body)) s =
            (run P (.eval env (listOf [.sym "set!", .sym x, e.toV])) >>= fun _ =>
              evalSeq (run P) env (Exp.toVs (((xs.zip es).map fun q => Exp.set q.1 q.2) ++ body))) s := by
          have hne : Exp.toVs (((xs.zip es).map fun q => Exp.set q.1 q.2) ++ body) ≠ [] := toVs_ne (by simp [hb])
          simp only [List.zip_cons_cons, List.map_cons, List.cons_append, Exp.toVs, Exp.toV]
          cases ht : Exp.toVs (((xs.zip es).map fun q => Exp.set q.1 q.2) ++ body) with
          | nil => exact absurd ht hne
          | cons y ys => rfl
        rw [hsplit]
        have hs := sim_set (B := B) (x := x) (H n (Nat.lt_succ_self n)) (hvar x (.head _)) hok.1 (.rib hW he) h
        have hassoc : ((evalInits B (n + 1) (bs ++ ρ) (x :: xs) (e :: es) st).bind fun (_, st) => evalBody B n' (bs ++ ρ) body st) =
            ((eval B n (bs ++ ρ) e st).bind fun (v, st) => (assign (bs ++ ρ) st x v).bind fun st => .val (Val.unspecified, st)).bind fun (_, st) =>
              (evalInits B n (bs ++ ρ) xs es st).bind fun (_, st) => evalBody B n' (bs ++ ρ) body st := by
          simp only [evalInits]
          cases eval B n (bs ++ ρ) e st with
          | unknown => rfl
          | error => rfl
          | val q =>
            simp only [Ans.bind]
            cases assign (bs ++ ρ) q.2 x q.1 <;> rfl
        rw [hassoc]
        refine Sim.bind hs fun W' s' v w st' ha hv h' => ?_
        exact ih (fun m hm => H m (by omega)) es (fun y hy => hvar y (.tail _ hy)) hok.2 (ha.le _ _ hW) (he.mono ha.le) h' (by simpa using hl)

theorem false_args (xs : List Name) : Exp.toVs (xs.map fun _ => Exp.const (.bool false)) = xs.map fun _ => V.bool false := by
  induction xs with
  | nil => rfl
  | cons x xs ih => simp [Exp.toVs, ih, Exp.toV, Const.toV]

theorem set_args {xs : List Name} {es : List Exp} :
    Exp.toVs ((xs.zip es).map fun q => Exp.set q.1 q.2) = (xs.zip (Exp.toVs es)).map fun b => listOf [V.sym "set!", V.sym b.1, b.2] := by
  induction xs generalizing es with
  | nil => rfl
  | cons x xs ih =>
    cases es with
    | nil => rfl
    | cons e es => simp [Exp.toVs, ih, Exp.toV]

theorem run_letrec (h : StRel X0 A W st s) {env : Nat} {xs : List Name} {es body : List Exp} (hl : xs.length = es.length) (hx : xs ≠ []) (hb : body ≠ []) :
    run P (.eval env (Exp.toV (.letrec xs es body))) s =
      run P (.eval env (Exp.toV (.app (.lam xs none (((xs.zip es).map fun q => Exp.set q.1 q.2) ++ body)) (xs.map fun _ => Exp.const (.bool false))))) s := by
  rw [← run_let h (by simp) (by simp [hb])]
  have hl' : xs.length = (Exp.toVs es).length := by rw [toVs_length]; exact hl
  apply run_congr
  intro o s'
  have hz : xs.zip (Exp.toVs es) ≠ [] := by
    cases xs with
    | nil => exact absurd rfl hx
    | cons x xs =>
      cases he : Exp.toVs es with
      | nil => rw [he] at hl'; cases hl'
      | cons y ys => simp
  have := c48_letrec (P := P) (env := env) (bs := xs.zip (Exp.toVs es)) (body := Exp.toVs body) (s' := s') (o := o) (h.noMacro (x := "letrec") (by decide)) (toVs_ne hb) hz
  have hbs : bindingList ((xs.zip (Exp.toVs es)).map fun b => (b.1, V.bool false)) = bindings xs (xs.map fun _ => V.bool false) := by
    unfold bindingList bindings
    congr 1
    clear this hz hx hl h
    generalize Exp.toVs es = vs at hl' ⊢
    induction xs generalizing vs with
    | nil => rfl
    | cons x xs ih =>
      cases vs with
      | nil => cases hl'
      | cons v vs =>
        have := ih vs (by simpa using hl')
        simp only [List.map_cons, List.zip_cons_cons, List.map_map] at this ⊢
        rw [this]
  rw [hbs] at this
  simp only [Exp.toV, toVs_append, set_args, false_args]
  exact this

theorem sim_letrec {n : Nat} (H : ∀ m, m < n → SimAt X0 P A B m) {env : Nat} {ρ : Env} {xs : List Name} {es body : List Exp} (hok : (Exp.letrec xs es body).Ok)
    (he : EnvAt W env ρ) (h : StRel X0 A W st s) :
    Sim X0 A (VRel A) W s (run P (.eval env (Exp.toV (.letrec xs es body))) s)
      ((evalInits B n (enter xs (xs.map fun _ => .undefined) body ρ st).1 xs es (enter xs (xs.map fun _ => .undefined) body ρ st).2).bind fun (_, st') =>
        evalBody B n (enter xs (xs.map fun _ => .undefined) body ρ st).1 body st') := by
  simp only [Exp.Ok] at hok
  obtain ⟨hvar, hnd', hl, hx, hes, hb, hbok⟩ := hok
  have hnd := (List.nodup_append.1 hnd').1
  rw [run_letrec h hl hx hb]
  let code := ((xs.zip es).map fun q => Exp.set q.1 q.2) ++ body
  obtain ⟨es', pp, hfe⟩ := h.frame he
  have hlt := he.lt h
  let s1 : St σ := { s with frames := s.frames ++ [⟨[], some env, none⟩] }
  let s2 : St σ := { s1 with frames := updFrame s1.frames s.frames.length fun es => (xs.zip (xs.map fun _ => V.bool false)).reverse ++ es }
  have h1 : StRel X0 A W st s1 := h.push hlt
  have hfr : W s.frames.length = none := by
    cases hw : W s.frames.length with
    | none => rfl
    | some q => have := h.lt (bs := q.1) (p := q.2) hw; omega
  have hne : Exp.toVs code ≠ [] := toVs_ne (by simp [code, hb])
  have hbody : mkBody (listOf (Exp.toVs code)) = listOf (Exp.toVs code) := by
    cases hc : Exp.toVs code with
    | nil => exact absurd hc hne
    | cons y ys => rfl
  have hf1 : s1.frames[s.frames.length]? = some ⟨[], some env, none⟩ := by simp [s1]
  have hrun : run P (.eval env (Exp.toV (.app (.lam xs none code) (xs.map fun _ => Exp.const (.bool false))))) s =
      evalSeq (run P) s.frames.length (Exp.toVs code) s2 := by
    simp only [Exp.toV, false_args]
    rw [run_head, bind_apply, run_form h (f := .lambda) (by decide)]
    have hlam : (Pscm.Ev.evalForm P (run P) Pscm.Ev.Form.lambda env (.pair (paramList xs none) (listOf (Exp.toVs code))) : EM σ V) s =
        some (.ok (.proc (paramList xs none) (listOf (Exp.toVs code)) env), s) := by
      show evalLambda env (.pair (paramList xs none) (listOf (Exp.toVs code))) s = _
      unfold evalLambda
      simp only [uncons, hbody]
      cases xs <;> rfl
    rw [hlam]
    simp only []
    rw [run_eq]
    show applyProc (run P) env (paramList xs none) (listOf (Exp.toVs code)) env (nodes (listOf (xs.map fun _ => V.bool false))) s = _
    unfold applyProc
    rw [splitParams_paramList, bind_apply, newEnv_apply hfe]
    simp only [nodes_listOf]
    rw [bind_apply, bind_false xs hnd hf1 (by simp)]
  rw [hrun]
  have hf2 : s2.frames[s.frames.length]? = some ⟨(xs.zip (xs.map fun _ => V.bool false)).reverse, some env, none⟩ := by
    simp only [s2, getElem?_upd_self _ _ hf1, List.append_nil]
  have h2 : StRel X0 A W st s2 := by
    refine h1.withFrames (wf_upd h1.wf _ _) ?_ ?_
    · intro f hf q hq
      rcases mem_upd hf with hf | ⟨f', hf', rfl⟩
      · exact h1.macros f hf q hq
      · rcases List.mem_append.1 hq with hq | hq
        · have := List.of_mem_zip (List.mem_reverse.1 hq)
          obtain ⟨_, _, hq2⟩ := List.mem_map.1 this.2
          rw [← hq2]; exact .inr rfl
        · exact h1.macros f' hf' q hq
    · intro i hi
      have : i ≠ s.frames.length := by
        rintro rfl
        rcases hi with hi | hi
        · omega
        · exact hi hfr
      rw [getElem?_upd_ne _ _ this]
  obtain ⟨W3, r1, r2, r3, r4, r5⟩ := h2.register (pe := s.frames.length) (p := env) (xs := xs) (ys := defs body) (vs := xs.map fun _ => .undefined)
    (ws := xs.map fun _ => V.bool false) hfr (by omega) hf2 hnd' (by simp) (by simp) he
    (by
      intro W3 _ _ i v w hv _
      rw [List.getElem?_map] at hv
      cases hi : xs[i]? with
      | none => rw [hi] at hv; cases hv
      | some x => rw [hi] at hv; cases hv; exact .inl rfl)
  have hb := sim_inits (B := B) (n := n) (n' := n) H H xs es body hvar hes hb hbok r5
    (fun x hx => zip_has (by simp) (List.mem_append.2 (.inr hx))) (he.mono r1) r4 hl
  have hb : Sim X0 A (VRel A) W3 s2 (evalSeq (run P) s.frames.length (Exp.toVs code) s2)
      ((evalInits B n (enter xs (xs.map fun _ => .undefined) body ρ st).1 xs es (enter xs (xs.map fun _ => .undefined) body ρ st).2).bind fun (_, st') =>
        evalBody B n (enter xs (xs.map fun _ => .undefined) body ρ st).1 body st') := hb
  have haft : After W W3 s s2 := by
    refine ⟨r1, by simp [s2, s1, updFrame_length'], fun i hi hw => r2 i (by omega) hw, fun i hi0 hi hw _ => ?_⟩
    simp only [s2, getElem?_upd_ne _ _ (show i ≠ s.frames.length by omega), s1]
    rw [List.getElem?_append_left hi]
  generalize ((evalInits B n (enter xs (xs.map fun _ => .undefined) body ρ st).1 xs es (enter xs (xs.map fun _ => .undefined) body ρ st).2).bind fun (_, st') =>
        evalBody B n (enter xs (xs.map fun _ => .undefined) body ρ st).1 body st') = ans at hb ⊢
  cases ans with
  | unknown => trivial
  | error => exact hb
  | val q =>
    obtain ⟨b, s3, W4, t1, t2, t3, t4⟩ := hb
    exact ⟨b, s3, W4, t1, haft.trans t2, t3, t4⟩

theorem temp_var {x : Name} (hx : IsVar x) (i : Nat) : x ≠ tempName i := by
  rintro rfl
  refine hx.2.2 ?_
  unfold tempName
  rw [String.toList_append]
  rfl

theorem temps_lookup {x : Name} (hx : IsVar x) (k : Nat) (ws : List V) : ((temps k).zip ws).reverse.lookup x = none := by
  rw [List.lookup_eq_none_iff]
  intro q hq
  have := (List.of_mem_zip (List.mem_reverse.1 hq)).1
  obtain ⟨i, _, hi⟩ := List.mem_map.1 this
  rw [bne_iff_ne, ← hi]
  exact temp_var hx i

/-- The loop of a named `let`, after the initialisers. -/
theorem sim_loop {n : Nat} (H : ∀ m, m < n → SimAt X0 P A B m) {env : Nat} {ρ : Env} {f : Name} {xs : List Name} {b : Exp} {ws args : List V} {vs : List Val} (hf : IsVar f)
    (hx : ∀ x ∈ xs, IsVar x) (hnd : xs.Nodup) (hb : b.Ok) (he : EnvAt W env ρ) (h : StRel X0 A W st s) (hr : VRels A W vs ws) (hl : vs.length = xs.length)
    (hal : args.length = ws.length)
    (ha : ∀ (i : Nat) a v, args[i]? = some a → ws[i]? = some v → ∀ es,
      let r : St σ := { s with frames := s.frames ++ [⟨[(f, .proc (paramList xs none) (listOf [b.toV]) s.frames.length)], some env, none⟩,
        ⟨es, some s.frames.length, none⟩] }
      run P (.eval s.frames.length a) r = some (.ok v, r)) :
    Sim X0 A (VRel A) W s (run P (.eval env (listOf [.sym "letrec", bindingList [(f, listOf [.sym "lambda", listOf (xs.map V.sym), b.toV])],
        .pair (.sym f) (listOf args)])) s)
      (apply B n (.clo xs none [b] ((f, st.cells.length) :: ρ)) vs { st with cells := st.cells ++ [.clo xs none [b] ((f, st.cells.length) :: ρ)] }) := by
  have hlw := hr.length
  obtain ⟨es0, p0, hfe⟩ := h.frame he
  have hlt := he.lt h
  let clo : V := .proc (paramList xs none) (listOf [b.toV]) s.frames.length
  let F1 : Frame := ⟨[(f, clo)], some env, none⟩
  let F2 : Frame := ⟨(xs.zip ws).reverse, some s.frames.length, none⟩
  let r : St σ := { s with frames := s.frames ++ [F1, F2] }
  have hrun : run P (.eval env (listOf [.sym "letrec", bindingList [(f, listOf [.sym "lambda", listOf (xs.map V.sym), b.toV])], .pair (.sym f) (listOf args)])) s =
      run P (.eval (s.frames.length + 1) b.toV) r := by
    have := fun o s' => letrec_loop (P := P) (e := env) (loop := f) (xs := xs) (b := b.toV) (args := args) (vs := ws) (t := s) (s' := s') (o := o) hfe
      (h.noMacro (x := "letrec") (by decide)) (h.noMacro (x := "let") (by decide)) (h.noMacro (x := "lambda") (by decide)) (h.noMacro (x := "set!") (by decide))
      hf.form hnd hal (by omega) ha
    apply run_congr2
    intro o s'
    exact this o s'
  rw [hrun]
  have hfr : ∀ k, s.frames.length ≤ k → W k = none := by
    intro k hk
    cases hw : W k with
    | none => rfl
    | some q => have := h.lt (bs := q.1) (p := q.2) hw; omega
  have h1 : StRel X0 A W st r := by
    have hfr' : s.frames ++ [F1, F2] = (s.frames ++ [F1]) ++ [F2] := by simp
    refine h.withFrames ?_ ?_ ?_
    · rw [hfr']
      exact wf_push (wf_push h.wf hlt) (by simp)
    · intro g hg q hq
      rcases List.mem_append.1 hg with hg | hg
      · exact h.macros g hg q hq
      · simp only [List.mem_cons, List.not_mem_nil, or_false] at hg
        rcases hg with rfl | rfl
        · simp only [F1, List.mem_singleton] at hq
          subst hq
          exact .inr rfl
        · exact .inr (hr.noMacro _ (List.of_mem_zip (List.mem_reverse.1 hq)).2)
    · intro i hi
      have : i < s.frames.length := by
        rcases hi with rfl | hi
        · omega
        · rcases Nat.lt_or_ge i s.frames.length with hh | hh
          · exact hh
          · exact absurd (hfr i hh) hi
      rw [List.getElem?_append_left this]
  have hlam : (Exp.lam xs none [b]).Ok := by
    have hd : defs [b] = [] := by
      cases b <;> first | rfl | (simp only [Exp.Ok] at hb)
    simp only [Exp.Ok, Option.toList, List.append_nil, hd]
    refine ⟨hx, hnd, by simp, ?_⟩
    cases b <;> first | exact ⟨hb, trivial⟩ | (simp only [Exp.Ok] at hb)
  have hd : defs [b] = [] := by
    cases b <;> first | rfl | (simp only [Exp.Ok] at hb)
  obtain ⟨W1, r1, r2, r3, r4, r5⟩ := h1.register (pe := s.frames.length) (p := env) (xs := [f]) (ys := []) (vs := [.clo xs none [b] ((f, st.cells.length) :: ρ)])
    (ws := [clo]) (hfr _ (Nat.le_refl _)) (by omega) (by simp [r, F1]) (by simp) rfl rfl he (by
      intro W' hle hat i v w hv hw
      cases i with
      | succ i => simp at hv
      | zero =>
        simp only [List.getElem?_cons_zero, Option.some.injEq] at hv hw
        subst hv hw
        exact .inr ⟨s.frames.length, rfl, hat, hlam⟩)
  obtain ⟨W2, t1, t2, t3, t4, _⟩ := r4.register (pe := s.frames.length + 1) (p := s.frames.length) (xs := xs) (ys := []) (vs := vs) (ws := ws)
    (r2 _ (by omega) (hfr _ (by omega))) (by omega) (by simp [r, F2]) (by simpa using hnd) hl (by omega) r3
    (fun W' hle _ i v w hv hw => .inr (((hr.mono r1).mono hle).get hv hw))
  have haft : After W W2 s r := by
    refine ⟨r1.trans t1, by simp [r], fun i hi hw => t2 i (by omega) (r2 i (by omega) hw), fun i hi0 hi hw _ => ?_⟩
    simp only [r]
    rw [List.getElem?_append_left hi]
  cases n with
  | zero => simp only [apply]; trivial
  | succ n =>
    simp only [apply, hl, if_true]
    cases n with
    | zero => simp only [evalBody]; trivial
    | succ n =>
      simp only [evalBody]
      have hbody := H n (by omega) hb t3 t4
      have hen : enter xs vs [b] ((f, st.cells.length) :: ρ) { st with cells := st.cells ++ [.clo xs none [b] ((f, st.cells.length) :: ρ)] } =
          alloc (xs ++ []) (vs ++ ([] : List Name).map fun _ => .unassigned) (alloc ([f] ++ []) ([.clo xs none [b] ((f, st.cells.length) :: ρ)] ++ ([] : List Name).map fun _ => Val.unassigned) ρ st).1
            (alloc ([f] ++ []) ([.clo xs none [b] ((f, st.cells.length) :: ρ)] ++ ([] : List Name).map fun _ => Val.unassigned) ρ st).2 := by
        unfold enter
        rw [hd]
        rfl
      rw [hen]
      generalize eval B n _ b _ = ans at hbody ⊢
      cases ans with
      | unknown => trivial
      | error => exact hbody
      | val q =>
        obtain ⟨v, s3, W4, u1, u2, u3, u4⟩ := hbody
        exact ⟨v, s3, W4, u1, haft.trans u2, u3, u4⟩

theorem sim_named {n : Nat} (H : ∀ m, m < n → SimAt X0 P A B m) {env : Nat} {ρ : Env} {f : Name} {xs : List Name} {es : List Exp} {body : Exp}
    (hok : (Exp.namedLet f xs es body).Ok) (he : EnvAt W env ρ) (h : StRel X0 A W st s) :
    Sim X0 A (VRel A) W s (run P (.eval env (Exp.toV (.namedLet f xs es body))) s)
      ((evalList B n ρ es st).bind fun (vs, st) => apply B n (.clo xs none [body] ((f, st.cells.length) :: ρ)) vs
        { st with cells := st.cells ++ [.clo xs none [body] ((f, st.cells.length) :: ρ)] }) := by
  simp only [Exp.Ok] at hok
  obtain ⟨hf, hx, hnd, hl, hes, hb⟩ := hok
  cases n with
  | zero => simp only [evalList]; trivial
  | succ n =>
  cases xs with
  | nil =>
    cases es with
    | cons e es => cases hl
    | nil =>
      have hrun : run P (.eval env (Exp.toV (.namedLet f [] [] body))) s =
          run P (.eval env (listOf [.sym "letrec", bindingList [(f, listOf [.sym "lambda", listOf (([] : List Name).map V.sym), body.toV])], .pair (.sym f) (listOf [])])) s := by
        show run P (.eval env (.pair (.sym "let") (listOf [.sym f, .nil, body.toV]))) s = _
        rw [run_form h (f := .let_) (by decide)]
        rfl
      rw [hrun]
      simp only [evalList, Ans.bind]
      exact sim_loop (ws := []) H hf hx hnd hb he h .nil rfl rfl (fun i a v h => by simp at h)
  | cons x0 xs0 =>
    generalize hxs : x0 :: xs0 = xs at *
    have hne : xs ≠ [] := by rw [← hxs]; simp
    have hl' : xs.length = (Exp.toVs es).length := by rw [toVs_length]; exact hl
    let lrec : V := listOf [.sym "letrec", bindingList [(f, listOf [.sym "lambda", listOf (xs.map V.sym), body.toV])],
      .pair (.sym f) (listOf ((temps xs.length).map V.sym))]
    have hexp : (expandLet (listOf [.sym f, bindings xs (Exp.toVs es), body.toV]) : EM σ V) =
        pure (listOf [.sym "let", bindingList ((temps xs.length).zip (Exp.toVs es)), lrec]) := by
      have h2 := letBindings_bindingList (xs.zip (Exp.toVs es))
      cases hz : xs.zip (Exp.toVs es) with
      | nil =>
        have := congrArg List.length hz
        simp only [List.length_zip, List.length_nil] at this
        have : xs.length = 0 := by omega
        exact absurd (List.length_eq_zero_iff.1 this) hne
      | cons c bs =>
        have e1 : xs.map V.sym = (c :: bs).map fun b => V.sym b.1 := by rw [← hz, zip_names hl']
        have e2 : Exp.toVs es = (c :: bs).map Prod.snd := by rw [← hz, zip_exprs hl']
        have e3 : xs.length = (c :: bs).length := by rw [← hz, List.length_zip]; omega
        rw [hz] at h2
        unfold bindings
        rw [hz]
        simp only [lrec]
        rw [e1, e2, e3]
        have hn2 : nodes (listOf ((c :: bs).map fun b => listOf [V.sym b.1, b.2])) = (c :: bs).map fun b => listOf [.sym b.1, b.2] := nodes_listOf _
        have hn : listOf ((c :: bs).map fun b => listOf [V.sym b.1, b.2]) = .pair (listOf [.sym c.1, c.2]) (listOf (bs.map fun b => listOf [V.sym b.1, b.2])) := rfl
        rw [hn] at hn2 ⊢
        simp only [listOf, expandLet]
        simp only [listOf] at hn2 h2
        rw [hn2, h2]
        simp only [tempBindings_eq, tempSyms_eq, List.length_map, temps, List.range_eq_range', List.map_map, bindingList, listOf,
          List.map_cons, List.map_nil, List.length_cons, Function.comp_def]
    have hsnd : ((temps xs.length).zip (Exp.toVs es)).map Prod.snd = Exp.toVs es := by
      rw [List.map_snd_zip]; simp [temps]; omega
    have hfst : (((temps xs.length).zip (Exp.toVs es)).map fun b => V.sym b.1) = (temps xs.length).map V.sym := by
      exact zip_names (by simp [temps]; omega)
    obtain ⟨es', pp, hfe⟩ := h.frame he
    have hlt := he.lt h
    let s1 : St σ := { s with frames := s.frames ++ [⟨[], some env, none⟩] }
    have h1 : StRel X0 A W st s1 := h.push hlt
    have hfr : W s.frames.length = none := by
      cases hw : W s.frames.length with
      | none => rfl
      | some q => have := h.lt (bs := q.1) (p := q.2) hw; omega
    have hrun : run P (.eval env (Exp.toV (.namedLet f xs es body))) s =
        (bindParams (run P) env s.frames.length ((temps xs.length).map V.sym) none (Exp.toVs es) >>= fun _ => evalSeq (run P) s.frames.length [lrec]) s1 := by
      have e1 : run P (.eval env (Exp.toV (.namedLet f xs es body))) s =
          run P (.eval env (listOf (.sym "let" :: bindingList ((temps xs.length).zip (Exp.toVs es)) :: [lrec]))) s := by
        show run P (.eval env (.pair (.sym "let") (listOf [.sym f, bindings xs (Exp.toVs es), body.toV]))) s = _
        rw [run_form h (f := .let_) (by decide)]
        simp only [Pscm.Ev.evalForm, hexp, pure_bind']
      have e2 : run P (.eval env (listOf (.sym "let" :: bindingList ((temps xs.length).zip (Exp.toVs es)) :: [lrec]))) s =
          run P (.eval env (.pair (listOf [.sym "lambda", paramList (temps xs.length) none, lrec]) (listOf (Exp.toVs es)))) s := by
        apply run_congr
        intro o s'
        have := c48_let (P := P) (env := env) (bs := (temps xs.length).zip (Exp.toVs es)) (body := [lrec]) (s' := s') (o := o) (h.noMacro (x := "let") (by decide)) (by simp)
        rw [hsnd, hfst, ← paramList_none] at this
        exact this
      rw [e1, e2]
      show run P (.eval env (.pair (.pair (.sym "lambda") (.pair (paramList (temps xs.length) none) (listOf [lrec]))) (listOf (Exp.toVs es)))) s = _
      rw [run_head, bind_apply, run_form h (f := .lambda) (by decide)]
      have hlam : (Pscm.Ev.evalForm P (run P) Pscm.Ev.Form.lambda env (.pair (paramList (temps xs.length) none) (listOf [lrec])) : EM σ V) s =
          some (.ok (.proc (paramList (temps xs.length) none) (listOf [lrec]) env), s) := by
        show evalLambda env (.pair (paramList (temps xs.length) none) (listOf [lrec])) s = _
        unfold evalLambda
        simp only [uncons]
        cases temps xs.length <;> rfl
      rw [hlam]
      simp only []
      rw [run_eq]
      show applyProc (run P) env (paramList (temps xs.length) none) (listOf [lrec]) env (nodes (listOf (Exp.toVs es))) s = _
      unfold applyProc
      rw [splitParams_paramList, bind_apply, newEnv_apply hfe]
      simp only [nodes_listOf]
      rfl
    rw [hrun]
    have hsp := sim_params (p := env) (es := []) H (temps xs.length) none es hes he h1 hfr (by omega) (by simp [s1])
      (by simpa using temps_nodup xs.length) (by simp)
    cases hr : evalList B (n + 1) ρ es st with
    | unknown => trivial
    | error o =>
      rw [hr] at hsp
      obtain ⟨k, a, s2, hsp, ho⟩ := hsp
      exact ⟨k, a, s2, by rw [bind_apply, hsp], ho fun _ => by simp [temps]; omega⟩
    | val q =>
      obtain ⟨vs, st'⟩ := q
      rw [hr] at hsp
      obtain ⟨hvl, _, k3⟩ := hsp
      have htl : (temps xs.length).length = xs.length := by simp [temps]
      obtain ⟨s2, W2, ws, m1, m2, m3, m4, m5⟩ := k3 (by simp only [CountOk]; omega)
      have hlen2 : s.frames.length < s1.frames.length := by simp [s1]
      have m5 : s2.frames[s.frames.length]? = some ⟨((temps xs.length).zip ws).reverse, some env, none⟩ := by
        simpa [frameVals] using m5
      obtain ⟨W3, r1, r2, r3, r4⟩ := m4.hide (pe := s.frames.length) (p := env) (m2.fresh _ hlen2 hfr) (by omega) m5
        (fun x hx => temps_lookup hx _ _) (he.mono m2.le)
      have haft : After W W3 s s2 := by
        refine ⟨m2.le.trans r1, by have := m2.len; omega, fun i hi hw => ?_, fun i hi0 hi hw _ => ?_⟩
        · exact r2 i (by omega) (m2.fresh i (by omega) hw)
        · rw [m2.keep i hi0 (by omega) hw (by omega)]
          simp only [s1]
          rw [List.getElem?_append_left hi]
      rw [bind_apply, m1]
      simp only [Ans.bind, evalSeq]
      have hwl := m3.length
      have hloop := sim_loop (B := B) (n := n + 1) (args := (temps xs.length).map V.sym) H hf hx hnd hb r3 r4 (m3.mono r1) (by omega)
        (by rw [List.length_map]; omega) (fun i a v ha hv ees => by
          simp only []
          have hi : i < xs.length := by
            have := (List.getElem?_eq_some_iff.1 hv).1
            omega
          have ht : (temps xs.length)[i]? = some (tempName i) := by
            simp [temps, List.getElem?_range hi]
          have ha' : a = .sym (tempName i) := by
            rw [List.getElem?_map, ht] at ha
            simpa using ha.symm
          subst ha'
          rw [← evals_iff]
          have hkw : isKeyword (tempName i) = false := by
            unfold isKeyword
            rw [tempName_head]
            rfl
          have hlook : ((temps xs.length).zip ws).reverse.lookup (tempName i) = some v := by
            rw [lookup_reverse (by rw [List.map_fst_zip (by omega)]; exact temps_nodup _)]
            exact zip_lookup_at (temps_nodup _) ht hv
          have hlt2 : s.frames.length < s2.frames.length := (List.getElem?_eq_some_iff.1 m5).1
          have hsplit : ∀ (a b : Frame), s2.frames ++ [a, b] = (s2.frames ++ [a]) ++ [b] := by intros; simp
          have hwf : FramesWF (s2.frames ++ [(⟨[(f, .proc (paramList xs none) (listOf [body.toV]) s2.frames.length)], some s.frames.length, none⟩ : Frame),
              ⟨ees, some s2.frames.length, none⟩]) := by
            rw [hsplit]
            exact wf_push (wf_push m4.wf hlt2) (by simp)
          refine (c38_reference P s2.frames.length (tempName i) _ hwf hkw).1 s.frames.length v ?_
          refine .up (f := ⟨[(f, .proc (paramList xs none) (listOf [body.toV]) s2.frames.length)], some s.frames.length, none⟩) (by simp) ?_ rfl ?_
          · have : (tempName i == f) = false := by simpa using fun h => temp_var hf i h.symm
            simp [List.lookup, this]
          · refine .here (f := ⟨((temps xs.length).zip ws).reverse, some env, none⟩) ?_ hlook
            rw [List.getElem?_append_left (by omega)]
            exact m5)
      have hloop : Sim X0 A (VRel A) W3 s2 (run P (.eval s.frames.length lrec) s2)
        (apply B (n + 1) (.clo xs none [body] ((f, st'.cells.length) :: ρ)) vs
          { st' with cells := st'.cells ++ [.clo xs none [body] ((f, st'.cells.length) :: ρ)] }) := hloop
      generalize apply B (n + 1) _ vs _ = ans at hloop ⊢
      cases ans with
      | unknown => trivial
      | error => exact hloop
      | val q =>
        obtain ⟨v, s3, W4, u1, u2, u3, u4⟩ := hloop
        exact ⟨v, s3, W4, u1, haft.trans u2, u3, u4⟩

/-- The interpreter agrees with the reference semantics. -/
theorem sim (hI : Implements X0 P A B) (n : Nat) : SimAt X0 P A B n := by
  induction n using Nat.strongRecOn with
  | ind n IH =>
  intro env ρ e W st s hok he h
  cases n with
  | zero => simp only [eval]; trivial
  | succ n =>
  have H : ∀ m, m < n → SimAt X0 P A B m := fun m hm => IH m (by omega)
  have Hn : SimAt X0 P A B n := IH n (Nat.lt_succ_self n)
  cases e with
  | const c => simp only [eval, Exp.toV, run_const]; exact Sim.ret (const_rel c) h
  | quote d =>
    simp only [eval, Exp.toV]
    have : run P (.eval env (listOf [.sym "quote", d.toV])) s = some (.ok d.toV, s) := by
      show run P (.eval env (.pair (.sym "quote") (.pair d.toV .nil))) s = _
      rw [run_form h (f := .quote) (by decide)]
      rfl
    rw [this]
    exact Sim.ret (datum_rel d) h
  | var x =>
    simp only [Exp.Ok] at hok
    simp only [eval, Exp.toV]
    rw [run_var hok]
    unfold lookupSymbol
    rw [getSt_bind]
    cases hl : look ρ st x with
    | none =>
      rw [h.look_none hok hok.macros he hl]
      exact Sim.err h
    | some v =>
      rcases h.look_some hok he hl with (rfl | rfl) | ⟨w, hw, hr⟩
      · trivial
      · trivial
      · rw [hw]
        cases v with
        | undefined => trivial
        | unassigned => trivial
        | _ => exact Sim.ret hr h
  | lam ps rest body =>
    simp only [eval, Exp.toV]
    rw [run_form h (f := .lambda) (by decide)]
    have hok' := hok
    simp only [Exp.Ok] at hok'
    have : (Pscm.Ev.evalForm P (run P) Pscm.Ev.Form.lambda env (.pair (paramList ps rest) (listOf (Exp.toVs body))) : EM σ V) s =
        some (.ok (.proc (paramList ps rest) (listOf (Exp.toVs body)) env), s) := by
      show evalLambda env (.pair (paramList ps rest) (listOf (Exp.toVs body))) s = _
      have hne := toVs_ne hok'.2.2.1
      have hbody : mkBody (listOf (Exp.toVs body)) = listOf (Exp.toVs body) := by
        cases hc : Exp.toVs body with
        | nil => exact absurd hc hne
        | cons y ys => rfl
      unfold evalLambda
      simp only [uncons, hbody]
      cases ps <;> cases rest <;> rfl
    rw [this]
    exact Sim.ret ⟨env, rfl, he, hok⟩ h
  | app f args =>
    simp only [Exp.Ok] at hok
    have hcall : ∀ (W' : World) (s' : St σ) (v : Val) (w : V) (st' : Store), After W W' s s' → VRel A W' v w → StRel X0 A W' st' s' →
        Sim X0 A (VRel A) W' s' (run P (.eval env (.pair w (listOf (Exp.toVs args)))) s')
          (if callable B v = true then (if misfit args.length v = true then (evalList B n ρ args st').wrong else
            (evalList B n ρ args st').bind fun (vs, st) => apply B n v vs st) else .unknown) := by
      intro W' s' v w st' ha hv h'
      by_cases hc : callable B v = true
      · rw [if_pos hc]
        exact sim_call hI H hok.2 (he.mono ha.le) h' hv hc
      · rw [if_neg hc]
        trivial
    have hpair : (∃ a d, f.toV = .pair a d) → Sim X0 A (VRel A) W s (run P (.eval env (Exp.toV (.app f args))) s) (eval B (n + 1) ρ (.app f args) st) := by
      rintro ⟨a, d, hfv⟩
      simp only [eval, Exp.toV]
      rw [hfv, run_head, ← hfv]
      exact Sim.bind (Hn hok.1 he h) hcall
    cases f with
    | var x =>
      simp only [eval, Exp.toV]
      have hx : IsVar x := by simpa [Exp.Ok] using hok.1
      rw [h.run_call he hx]
      refine Sim.bind (α := Val) (R := VRel A) ?_ hcall
      rw [← run_var (P := P) hx]
      exact Hn hok.1 he h
    | const c =>
      simp only [eval]
      cases n with
      | zero => simp only [eval]; trivial
      | succ n =>
        have : eval B (n + 1) ρ (.const c) st = .val (c.toVal, st) := by simp only [eval]
        rw [this]
        exact hcall W s _ _ st (AfterX.refl) (const_rel c) h
    | _ => exact hpair ⟨_, _, by simp only [Exp.toV, listOf] <;> rfl⟩
  | ite c a b =>
    simp only [Exp.Ok] at hok
    simp only [eval, Exp.toV]
    have : run P (.eval env (listOf [.sym "if", c.toV, a.toV, b.toV])) s =
        (run P (.eval env c.toV) >>= fun v => if truthy v = true then run P (.eval env a.toV) else run P (.eval env b.toV)) s := by
      show run P (.eval env (.pair (.sym "if") (.pair c.toV (.pair a.toV (.pair b.toV .nil))))) s = _
      rw [run_form h (f := .if_) (by decide)]
      rfl
    rw [this]
    refine Sim.bind (Hn hok.1 he h) fun W' s' v w st' ha hv h' => ?_
    simp only [hv.truthy]
    cases v.isTrue with
    | true => exact Hn hok.2.1 (he.mono ha.le) h'
    | false => exact Hn hok.2.2 (he.mono ha.le) h'
  | ite1 c a =>
    simp only [Exp.Ok] at hok
    simp only [eval, Exp.toV]
    have : run P (.eval env (listOf [.sym "if", c.toV, a.toV])) s =
        (run P (.eval env c.toV) >>= fun v => if truthy v = true then run P (.eval env a.toV) else pure V.none) s := by
      show run P (.eval env (.pair (.sym "if") (.pair c.toV (.pair a.toV .nil)))) s = _
      rw [run_form h (f := .if_) (by decide)]
      rfl
    rw [this]
    refine Sim.bind (Hn hok.1 he h) fun W' s' v w st' ha hv h' => ?_
    simp only [hv.truthy]
    cases v.isTrue with
    | true => exact Hn hok.2 (he.mono ha.le) h'
    | false => exact Sim.ret rfl h'
  | loop xs es ss t rs bs =>
    refine sim_do H hok he h ?_
    show run P (.eval env (.pair (.sym "do") (.pair (listOf (loopVars xs (Exp.toVs es) (Exp.toVss ss)))
      (.pair (.pair t.toV (listOf (Exp.toVs rs))) (listOf (Exp.toVs bs)))))) s = _
    rw [run_form h (f := .do_) (by decide)]
    rfl
  | map f ls =>
    refine sim_map hI H Hn hok he h ?_
    show run P (.eval env (.pair (.sym "map") (listOf (f.toV :: Exp.toVs ls)))) s = _
    rw [run_form h (f := .map) (by decide)]
    show evalMap P (run P) env (nodes (listOf (f.toV :: Exp.toVs ls))) s = _
    rw [nodes_listOf]
  | forEach f ls =>
    refine sim_for hI H Hn hok he h ?_
    show run P (.eval env (.pair (.sym "for-each") (listOf (f.toV :: Exp.toVs ls)))) s = _
    rw [run_form h (f := .forEach) (by decide)]
    show evalForEach (run P) env (nodes (listOf (f.toV :: Exp.toVs ls))) s = _
    rw [nodes_listOf]
  | apply f l =>
    refine sim_applyForm hI H Hn hok he h ?_
    show run P (.eval env (.pair (.sym "apply") (.pair f.toV (.pair l.toV .nil)))) s = _
    rw [run_form h (f := .apply) (by decide)]
    rfl
  | quasi t =>
    refine sim_quasi H hok he h ?_
    show run P (.eval env (.pair (.sym "quasiquote") (.pair t.toV .nil))) s = _
    rw [run_form h (f := .quasiquote) (by decide)]
    rfl
  | set x e =>
    simp only [Exp.Ok] at hok
    simp only [eval, Exp.toV]
    exact sim_set Hn hok.1 hok.2 he h
  | begin es =>
    simp only [Exp.Ok] at hok
    simp only [eval, Exp.toV]
    rw [run_form h (f := .begin) (by decide)]
    have : Pscm.Ev.evalForm P (run P) Pscm.Ev.Form.begin env (listOf (Exp.toVs es)) s = evalSeq (run P) env (Exp.toVs es) s := by
      show evalBegin (run P) env (nodes (listOf (Exp.toVs es))) s = _
      rw [nodes_listOf]
      cases hc : Exp.toVs es with
      | nil => exact absurd hc (toVs_ne hok.1)
      | cons y ys => rfl
    rw [this]
    exact sim_body H es hok.2 he h
  | let_ xs es body =>
    have hok' := hok
    simp only [Exp.Ok] at hok'
    obtain ⟨h1, h2, h3, h4, h5, h6⟩ := hok'
    simp only [eval]
    rw [run_let h h3 h5]
    exact Hn (by simp only [Exp.Ok]; exact ⟨⟨by simpa using h1, by simpa using h2, h5, h6⟩, h4⟩) he h
  | letStar xs es body =>
    have hok' := hok
    simp only [Exp.Ok] at hok'
    obtain ⟨h1, hnd, h3, h4, h5, h6⟩ := hok'
    cases xs with
    | nil =>
      cases es with
      | cons e es => cases h3
      | nil =>
        simp only [eval]
        have : run P (.eval env (Exp.toV (.letStar [] [] body))) s = run P (.eval env (Exp.toV (.let_ [] [] body))) s := by
          rw [run_let h rfl h5]
          apply run_congr
          intro o s'
          exact c48_let_star_nil (h.noMacro (x := "let*") (by decide)) (toVs_ne h5)
        rw [this]
        exact Hn (by simp only [Exp.Ok, Exp.Oks]; simp [h5, h6, hnd]) he h
    | cons x xs =>
      cases es with
      | nil => cases h3
      | cons e es =>
        have h4 := oks_cons h4
        have hlet : ∀ o s', _ := fun o s' => c48_let_star (P := P) (env := env) (b := (x, e.toV)) (bs := xs.zip (Exp.toVs es)) (body := Exp.toVs body)
          (s := s) (s' := s') (o := o) (h.noMacro (x := "let*") (by decide)) (toVs_ne h5)
        cases xs with
        | nil =>
          cases es with
          | cons e es => simp at h3
          | nil =>
            simp only [eval, List.take]
            have : run P (.eval env (Exp.toV (.letStar [x] [e] body))) s = run P (.eval env (Exp.toV (.let_ [x] [e] body))) s := by
              apply run_congr
              intro o s'
              exact hlet o s'
            rw [this]
            exact Hn (by simp only [Exp.Ok, Exp.Oks]; exact ⟨fun y hy => (h1 y hy).1, by simp [hnd, (h1 x (.head _)).2], rfl, ⟨h4.1, trivial⟩, h5, h6⟩) he h
        | cons y ys =>
          simp only [eval, List.take, List.drop]
          have : run P (.eval env (Exp.toV (.letStar (x :: y :: ys) (e :: es) body))) s =
              run P (.eval env (Exp.toV (.let_ [x] [e] [.letStar (y :: ys) es body]))) s := by
            apply run_congr
            intro o s'
            have hz : (y :: ys).zip (Exp.toVs es) ≠ [] := by
              cases es with
              | nil => simp at h3
              | cons e es => simp [Exp.toVs]
            have := hlet o s'
            rw [if_neg hz] at this
            exact this
          rw [this]
          refine Hn ?_ he h
          simp only [Exp.Ok, Exp.Oks, Exp.BodyOk]
          refine ⟨fun z hz => (h1 z (by simp only [List.mem_singleton] at hz; subst hz; exact .head _)).1, by simp [defs], by simp, ⟨h4.1, trivial⟩, by simp, ⟨?_, trivial⟩⟩
          exact ⟨fun z hz => h1 z (.tail _ hz), hnd, by simpa using h3, h4.2, h5, h6⟩
  | letrec xs es body =>
    simp only [eval]
    exact sim_letrec H hok he h
  | and es =>
    simp only [Exp.Ok] at hok
    simp only [eval, Exp.toV]
    rw [run_form h (f := .and) (by decide)]
    show Sim X0 A (VRel A) W s (Pscm.Ev.evalAnd (run P) env (nodes (listOf (Exp.toVs es))) s) _
    rw [nodes_listOf]
    exact sim_and H es hok he h
  | or es =>
    simp only [Exp.Ok] at hok
    simp only [eval, Exp.toV]
    rw [run_form h (f := .or) (by decide)]
    show Sim X0 A (VRel A) W s (Pscm.Ev.evalOr (run P) env (nodes (listOf (Exp.toVs es))) s) _
    rw [nodes_listOf]
    exact sim_or H es hok he h
  | cond ts bs els =>
    simp only [Exp.Ok] at hok
    obtain ⟨hl, hts, hne, hbs, hor, hels⟩ := hok
    simp only [eval, Exp.toV]
    rw [run_form h (f := .cond) (by decide)]
    have hnil : listOf (clauses (Exp.toVs ts) (Exp.toVss bs) ++ elseClause (Exp.toVs els)) ≠ .nil := by
      cases ts with
      | nil =>
        cases els with
        | nil => rcases hor with h | h <;> exact absurd rfl h
        | cons e es => simp [Exp.toVs, clauses, elseClause, listOf]
      | cons t ts =>
        cases bs with
        | nil => cases hl
        | cons b bs => simp [Exp.toVs, Exp.toVss, clauses, listOf]
    show Sim X0 A (VRel A) W s ((if listOf _ = .nil then EM.stop .abort else Pscm.Ev.evalCond (run P) env (nodes (listOf _)) : EM σ V) s) _
    rw [if_neg hnil, nodes_listOf]
    exact sim_clauses H hl hts hne hbs hels he h
  | case k ds bs els =>
    simp only [Exp.Ok] at hok
    obtain ⟨hk, hl, hne, hbs, hels⟩ := hok
    simp only [eval, Exp.toV]
    rw [run_form h (f := .case) (by decide)]
    show Sim X0 A (VRel A) W s (Pscm.Ev.evalCase (run P) env (nodes (.pair k.toV (listOf _))) s) _
    simp only [nodes, nodes_listOf]
    refine Sim.bind (Hn hk he h) fun W' s' v w st' ha hv h' => ?_
    simp only []
    cases hkey : v.key with
    | none => trivial
    | some d => exact sim_cases H hkey hv hl hbs hels (he.mono ha.le) h'
  | define x e => simp only [Exp.Ok] at hok
  | namedLet f xs es body =>
    simp only [eval]
    exact sim_named H hok he h

end Pscm.Ref
