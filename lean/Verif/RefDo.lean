import Verif.RefSim3
import Verif.RefKeys
import Verif.EvDoProps
/-! # The interpreter simulates the reference semantics: `do` -/
namespace Pscm.Ref
open Pscm.Ev hiding Name Form evalForm
open Pscm.Ev.EM (modSt)
variable {σ : Type} {P : Prims σ} {A : Name → Int → Prop} {B : Builtins} {W W' : World} {st : Store} {s s' : St σ} {X0 : Fixed σ}

theorem fresh_iff {ρ : Env} {x : Name} : fresh ρ st x = true ↔ ρ.lookup x = none ∧ st.globals.lookup x = none := by
  unfold fresh
  simp

/-- A name that is not bound in the semantics is not bound in the interpreter. -/
theorem StRel.unbound (h : StRel X0 A W st s) {env : Nat} {ρ : Env} {x : Name} (hvar : IsVar x) (he : EnvAt W env ρ) (hx : fresh ρ st x = true) :
    Unbound s.frames x env := by
  obtain ⟨h1, h2⟩ := fresh_iff.1 hx
  obtain ⟨es, md, h0, _, _, hn, _⟩ := h.top
  intro i v hb
  have := ((h.outer hvar he h1 h0).1 hb).2
  have ht := hn x hvar.macros h2
  unfold topVal at ht
  rw [this] at ht
  cases ht

/-- Binding a new variable of `do`. -/
theorem bindDeep_new (h : StRel X0 A W st s) {env de : Nat} {ρ : Env} {x : Name} {w : V} {es : List (Name × V)} (hvar : IsVar x) (he : EnvAt W env ρ)
    (hx : fresh ρ st x = true) (hf : s.frames[de]? = some ⟨es, some env, none⟩) (hes : x ∉ es.map Prod.fst) :
    (bindDeep de x w : EM σ Unit) s = some (.ok (), { s with frames := updFrame s.frames de (upsert x w) }) := by
  have hnone : findFrame s.frames x (de + 1) de = none := by
    rw [findFrame_none h.wf]
    intro i v hb
    cases hb with
    | here hf' hv =>
      rw [hf] at hf'
      cases hf'
      exact hes (by
        have := lookup_mem hv
        exact List.mem_map.2 ⟨_, this, rfl⟩)
    | up hf' _ hp hb =>
      rw [hf] at hf'
      cases hf'
      cases hp
      exact h.unbound hvar he hx i v hb
  show some (Out.ok (), { s with frames := insertDeep s.frames de x w }) = _
  unfold insertDeep
  rw [hnone]
  simp only []
  rw [updFrame_congr _ _ _ _ _ hf (show (fun es => (x, w) :: es) es = upsert x w es by rw [upsert_fresh hes])]

theorem okss_cons {es : List Exp} {ess : List (List Exp)} (h : Exp.Okss (es :: ess)) : Exp.Oks es ∧ Exp.Okss ess := by simpa [Exp.Okss] using h

/-- The initialisation. -/
theorem sim_doInit {n : Nat} (H : ∀ m, m < n → SimAt X0 P A B m) {env de : Nat} {ρ : Env} (xs : List Name) (args : List Exp) (ss : List (List Exp))
    (hl : xs.length = args.length) (hl2 : xs.length = ss.length) (hss : ∀ l ∈ ss, l.length ≤ 1)
    (hok : Exp.Oks args) (he : EnvAt W env ρ) (h : StRel X0 A W st s) (hde : W de = none) (h0 : 0 < de) {es : List (Name × V)}
    (hf : s.frames[de]? = some ⟨es, some env, none⟩) (hnd : xs.Nodup) (hfr : ∀ x ∈ xs, x ∉ es.map Prod.fst) (hvar : ∀ x ∈ xs, IsVar x)
    (hx : ∀ x ∈ xs, fresh ρ st x = true) :
    match evalList B n ρ args st with
    | .unknown => True
    | .error o => ∃ k a s', doInit (run P) env de (loopVars xs (Exp.toVs args) (Exp.toVss ss)) s = some (.stop (.err X0.target k a), s') ∧ Left X0 A o s'
    | .val (vs, st') => vs.length = args.length ∧
      ∃ s' W' ws, doInit (run P) env de (loopVars xs (Exp.toVs args) (Exp.toVss ss)) s = some (.ok ((stepsOf xs ss).map fun q => (q.1, q.2.toV)), s') ∧
        AfterX (· = de) W W' s s' ∧ VRels A W' vs ws ∧ StRel X0 A W' st' s' ∧ s'.frames[de]? = some ⟨(xs.zip ws).reverse ++ es, some env, none⟩ := by
  induction args generalizing n W st s xs ss es with
  | nil =>
    cases xs with
    | cons x xs => cases hl
    | nil =>
      cases n with
      | zero => simp only [evalList]
      | succ n =>
        simp only [evalList]
        refine ⟨rfl, s, W, [], ?_, .refl, .nil, h, by simpa using hf⟩
        simp only [loopVars, doInit, stepsOf]
        rfl
  | cons e args ih =>
    cases xs with
    | nil => cases hl
    | cons x xs =>
    cases ss with
    | nil => cases hl2
    | cons l ss =>
    cases n with
    | zero => simp only [evalList]
    | succ n =>
      have hok := oks_cons hok
      have hs := H n (Nat.lt_succ_self n) hok.1 he h
      have hb : doInit (run P) env de (loopVars (x :: xs) (Exp.toVs (e :: args)) (Exp.toVss (l :: ss))) s =
          (run P (.eval env e.toV) >>= fun v => bindDeep de x v >>= fun _ => doInit (run P) env de (loopVars xs (Exp.toVs args) (Exp.toVss ss)) >>= fun rest =>
            match uncons (listOf (Exp.toVs l)) with
            | some (st, _) => pure ((x, st) :: rest)
            | none => pure rest) s := rfl
      rw [hb]
      simp only [evalList]
      cases hr : eval B n ρ e st with
      | unknown => simp only [Ans.bind]
      | error =>
        rw [hr] at hs
        obtain ⟨k, a, s', hs, ho⟩ := hs
        exact ⟨k, a, s', by rw [bind_apply, hs], ho⟩
      | val q =>
        obtain ⟨v, st1⟩ := q
        have hkeys : SameKeys st st1 := (keys B n).eval ρ e st _ hr
        rw [hr] at hs
        obtain ⟨w, s1, W1, h1, h2, h3, h4⟩ := hs
        have hlt : de < s.frames.length := (List.getElem?_eq_some_iff.1 hf).1
        have hde1 : W1 de = none := h2.fresh de hlt hde
        have hf1 : s1.frames[de]? = some ⟨es, some env, none⟩ := by rw [h2.keep de h0 hlt hde (fun h => h), hf]
        have h5 := h4.bindOwn (x := x) (w := w) hde1 h0 h3.noMacro
        simp only [List.nodup_cons] at hnd
        have hfresh : ∀ y ∈ x :: xs, fresh ρ st1 y = true := by
          intro y hy
          have := fresh_iff.1 (hx y hy)
          rw [fresh_iff]
          refine ⟨this.1, ?_⟩
          have hk := hkeys y
          rw [this.2] at hk
          simpa using hk
        have hbd := bindDeep_new (w := w) h4 (hvar x (.head _)) (he.mono h2.le) (hfresh x (.head _)) hf1 (hfr x (.head _))
        have hf2 : ({ s1 with frames := updFrame s1.frames de (upsert x w) } : St σ).frames[de]? = some ⟨(x, w) :: es, some env, none⟩ := by
          simp only [getElem?_upd_self _ _ hf1]
          rw [upsert_fresh (hfr x (.head _))]
        have hih := ih (n := n) (fun m hm => H m (by omega)) xs ss (by simpa using hl) (by simpa using hl2) (fun l hl => hss l (.tail _ hl)) hok.2 (he.mono h2.le) h5 hde1 hf2
          hnd.2 (by
          intro y hy
          simp only [List.map_cons, List.mem_cons, not_or]
          refine ⟨?_, hfr y (.tail _ hy)⟩
          rintro rfl
          exact hnd.1 hy) (fun y hy => hvar y (.tail _ hy)) (fun y hy => hfresh y (.tail _ hy))
        rw [bind_apply, h1]
        simp only [bind_apply, hbd, Ans.bind]
        cases hr2 : evalList B n ρ args st1 with
        | unknown => trivial
        | error =>
          rw [hr2] at hih
          obtain ⟨k, a, s', hih, ho⟩ := hih
          exact ⟨k, a, s', by simp only [hih], ho⟩
        | val q =>
          obtain ⟨vs, st2⟩ := q
          rw [hr2] at hih
          obtain ⟨k1, s2, W2, ws, m1, m2, m3, m4, m5⟩ := hih
          refine ⟨by simp [k1], s2, W2, w :: ws, ?_, ?_, .cons (h3.mono m2.le) m3, m4, ?_⟩
          · simp only [m1]
            have hl1 := hss l (.head _)
            match l, hl1 with
            | [], _ => rfl
            | [c], _ => rfl
            | _ :: _ :: _, hl1 => simp at hl1
          · refine ((h2.weaken fun _ h => h.elim).trans ⟨World.le_refl W1, ?_, fun _ _ h => h, fun i _ _ _ hx => ?_⟩).trans m2
            · simp [updFrame_length']
            · simp only [getElem?_upd_ne _ _ hx]
          · rw [m5]
            simp

/-! ## The loop -/

/-- Updating a variable of the loop is an assignment. -/
theorem bindDeep_assign (h : StRel X0 A W st s) {e : Nat} {ρ : Env} {x : Name} {v : Val} {w : V} {st' : Store} {l : Nat} (hvar : IsVar x) (he : EnvAt W e ρ)
    (hl : ρ.lookup x = some l) (ha : assign ρ st x v = .val st') : (bindDeep e x w : EM σ Unit) s = some (.ok (), assignSt s e x w) := by
  unfold Ref.assign at ha
  rw [hl] at ha
  simp only [] at ha
  rcases h.local hvar he hl with hu | ⟨i, bs, p, w0, h1, h2, h3⟩
  · rw [hu] at ha
    cases ha
  have hff : findFrame s.frames x (e + 1) e = some i := findFrame_complete h.wf h3 (e + 1) (Nat.lt_succ_self e)
  show some (Out.ok (), { s with frames := insertDeep s.frames e x w }) = _
  unfold insertDeep assignSt
  rw [hff]

theorem sim_assigns {e : Nat} {ρ : Env} (xs : List Name) (vs : List Val) (ws : List V) (hvar : ∀ x ∈ xs, IsVar x ∧ ∃ l, ρ.lookup x = some l) (he : EnvAt W e ρ)
    (h : StRel X0 A W st s) (hr : VRels A W vs ws) :
    match assigns ρ st xs vs with
    | .val st' => ∃ s', (doUpdate e (xs.zip ws) : EM σ Unit) s = some (.ok (), s') ∧ StRel X0 A W st' s' ∧ After W W s s'
    | .error _ => False
    | .unknown => True := by
  induction xs generalizing st s vs ws with
  | nil =>
    simp only [assigns, List.zip_nil_left, doUpdate]
    exact ⟨s, rfl, h, .refl⟩
  | cons x xs ih =>
    cases hr with
    | nil =>
      simp only [assigns, List.zip_nil_right, doUpdate]
      exact ⟨s, rfl, h, .refl⟩
    | @cons v vs w ws h1 h2 =>
      obtain ⟨hx, l, hl⟩ := hvar x (.head _)
      simp only [assigns, List.zip_cons_cons, doUpdate]
      cases ha : assign ρ st x v with
      | unknown => simp only [Ans.bind]
      | error =>
        unfold Ref.assign at ha
        rw [hl] at ha
        simp only [] at ha
        split at ha <;> cases ha
      | val st1 =>
        simp only [Ans.bind]
        obtain ⟨k1, k2⟩ := h.assign hx he h1 ha
        have hih := ih vs ws (fun y hy => hvar y (.tail _ hy)) k1 h2
        have hb := bindDeep_assign (w := w) h hx he hl ha
        cases hr2 : assigns ρ st1 xs vs with
        | unknown => trivial
        | error => rw [hr2] at hih; exact hih
        | val st2 =>
          rw [hr2] at hih
          obtain ⟨s2, m1, m2, m3⟩ := hih
          exact ⟨s2, by rw [bind_apply, hb]; exact m1, m2, k2.trans m3⟩

theorem toVs_snd (ss : List (Name × Exp)) : Exp.toVs (ss.map Prod.snd) = (ss.map fun q => (q.1, q.2.toV)).map Prod.snd := by
  induction ss with
  | nil => rfl
  | cons q ss ih => simp only [List.map_cons, Exp.toVs, ih]

theorem sim_doSteps {n : Nat} (H : ∀ m, m < n → SimAt X0 P A B m) {e : Nat} {ρ : Env} (ss : List (Name × Exp)) (hok : Exp.Oks (ss.map Prod.snd)) (he : EnvAt W e ρ)
    (h : StRel X0 A W st s) :
    Sim X0 A (fun W vs (zs : List (Name × V)) => ∃ ws, zs = (ss.map Prod.fst).zip ws ∧ VRels A W vs ws) W s
      (doSteps (run P) e (ss.map fun q => (q.1, q.2.toV)) s) (evalList B n ρ (ss.map Prod.snd) st) := by
  have hs := sim_list H (ss.map Prod.snd) hok he h
  rw [toVs_snd] at hs
  rw [doSteps_eq]
  have hmap : (ss.map fun q => (q.1, q.2.toV)).map Prod.fst = ss.map Prod.fst := by
    rw [List.map_map]; rfl
  cases hr : evalList B n ρ (ss.map Prod.snd) st with
  | unknown => trivial
  | error =>
    rw [hr] at hs
    obtain ⟨k, a, s', hs, ho⟩ := hs
    rw [hs]
    exact ⟨k, a, s', rfl, ho⟩
  | val q =>
    rw [hr] at hs
    obtain ⟨ws, s1, W1, h1, h2, h3, h4⟩ := hs
    rw [h1, hmap]
    exact ⟨_, s1, W1, rfl, h2, ⟨ws, rfl, h3⟩, h4⟩

theorem sim_doLoop {N : Nat} (H : ∀ m, m < N → SimAt X0 P A B m) {n : Nat} (hn : n ≤ N) {e : Nat} {ρ : Env} {ss : List (Name × Exp)} {t : Exp} {rs bs : List Exp}
    (hss : Exp.Oks (ss.map Prod.snd)) (hvar : ∀ x ∈ ss.map Prod.fst, IsVar x ∧ ∃ l, ρ.lookup x = some l) (ht : t.Ok) (hrs : Exp.Oks rs) (hbs : Exp.Oks bs)
    (he : EnvAt W e ρ) (h : StRel X0 A W st s) :
    Sim X0 A (VRel A) W s (run P (.doLoop e t.toV (listOf (Exp.toVs rs)) (listOf (Exp.toVs bs)) (ss.map fun q => (q.1, q.2.toV))) s)
      (evalLoop B n ρ ss t rs bs st) := by
  induction n generalizing W st s with
  | zero => simp only [evalLoop]; trivial
  | succ n ih =>
    have H' : ∀ m, m < n → SimAt X0 P A B m := fun m hm => H m (by omega)
    rw [run_eq]
    show Sim X0 A (VRel A) W s (doLoop (run P) e t.toV (listOf (Exp.toVs rs)) (listOf (Exp.toVs bs)) (ss.map fun q => (q.1, q.2.toV)) s) _
    unfold doLoop
    simp only [evalLoop]
    refine Sim.bind (H n (by omega) ht he h) fun W1 s1 v w st1 ha hv h1 => ?_
    cases v with
    | bool b =>
      cases hv
      cases b with
      | true =>
        simp only []
        cases rs with
        | nil =>
          simp only [Exp.toVs, listOf, if_true]
          exact Sim.ret rfl h1
        | cons r rs =>
          simp only [Exp.toVs, listOf, reduceCtorEq, if_false, isPair, if_true]
          have := sim_body (n := n) H' (r :: rs) hrs (he.mono ha.le) h1
          simpa only [Exp.toVs, nodes, nodes_listOf] using this
      | false =>
        simp only [nodes_listOf]
        refine Sim.bind (sim_list H' bs hbs (he.mono ha.le) h1) fun W2 s2 us xs st2 ha2 _ h2 => ?_
        refine Sim.bind (sim_doSteps H' ss hss ((he.mono ha.le).mono ha2.le) h2) fun W3 s3 vs zs st3 ha3 hz h3 => ?_
        obtain ⟨ws, rfl, hvs⟩ := hz
        have he3 := ((he.mono ha.le).mono ha2.le).mono ha3.le
        have hass := sim_assigns (ss.map Prod.fst) vs ws hvar he3 h3 hvs
        simp only []
        cases hr : assigns ρ st3 (ss.map Prod.fst) vs with
        | unknown => trivial
        | error => rw [hr] at hass; exact hass.elim
        | val st4 =>
          rw [hr] at hass
          obtain ⟨s4, m1, m2, m3⟩ := hass
          rw [bind_apply, m1]
          simp only [Ans.bind]
          have hih := ih (by omega) he3 m2
          generalize evalLoop B n ρ ss t rs bs st4 = ans at hih ⊢
          cases ans with
          | unknown => trivial
          | error => exact hih
          | val q =>
            obtain ⟨b, s5, W5, t1, t2, t3, t4⟩ := hih
            exact ⟨b, s5, W5, t1, m3.trans t2, t3, t4⟩
    | _ => trivial

theorem stepsOf_names {xs : List Name} {ss : List (List Exp)} : ∀ x ∈ (stepsOf xs ss).map Prod.fst, x ∈ xs := by
  induction xs generalizing ss with
  | nil => intro x hx; cases ss <;> cases hx
  | cons y xs ih =>
    intro x hx
    match ss with
    | [] => cases hx
    | [] :: ss => exact .tail _ (ih x (by simpa only [stepsOf] using hx))
    | [e] :: ss =>
      simp only [stepsOf, List.map_cons, List.mem_cons] at hx
      rcases hx with rfl | hx
      · exact .head _
      · exact .tail _ (ih x hx)
    | (_ :: _ :: _) :: ss => exact .tail _ (ih x (by simpa only [stepsOf] using hx))

theorem stepsOf_oks {xs : List Name} {ss : List (List Exp)} (h : Exp.Okss ss) : Exp.Oks ((stepsOf xs ss).map Prod.snd) := by
  induction xs generalizing ss with
  | nil => cases ss <;> simp [stepsOf, Exp.Oks]
  | cons y xs ih =>
    match ss with
    | [] => simp [stepsOf, Exp.Oks]
    | [] :: ss => simpa only [stepsOf] using ih (okss_cons h).2
    | [e] :: ss =>
      simp only [stepsOf, List.map_cons, Exp.Oks]
      exact ⟨(oks_cons (okss_cons h).1).1, ih (okss_cons h).2⟩
    | (_ :: _ :: _) :: ss => simpa only [stepsOf] using ih (okss_cons h).2

theorem sim_do {n : Nat} (H : ∀ m, m < n → SimAt X0 P A B m) {env : Nat} {ρ : Env} {xs : List Name} {es : List Exp} {ss : List (List Exp)} {t : Exp}
    {rs bs : List Exp} (hok : (Exp.loop xs es ss t rs bs).Ok) (he : EnvAt W env ρ) (h : StRel X0 A W st s)
    (hform : run P (.eval env (Exp.toV (.loop xs es ss t rs bs))) s = evalDo (run P) env (.pair (listOf (loopVars xs (Exp.toVs es) (Exp.toVss ss)))
      (.pair (.pair t.toV (listOf (Exp.toVs rs))) (listOf (Exp.toVs bs)))) s) :
    Sim X0 A (VRel A) W s (run P (.eval env (Exp.toV (.loop xs es ss t rs bs))) s) (eval B (n + 1) ρ (.loop xs es ss t rs bs) st) := by
  simp only [Exp.Ok] at hok
  obtain ⟨hvar, hnd, hl, hl2, hes, hss1, hss, ht, hrs, hbs⟩ := hok
  rw [hform]
  simp only [eval]
  cases hfr : xs.all (fresh ρ st) with
  | false => simp only [Bool.false_eq_true, if_false]; trivial
  | true =>
  simp only [if_true]
  obtain ⟨es', pp, hfe⟩ := h.frame he
  have hlt := he.lt h
  let s1 : St σ := { s with frames := s.frames ++ [⟨[], some env, none⟩] }
  have h1 : StRel X0 A W st s1 := h.push hlt
  have hde : W s.frames.length = none := by
    cases hw : W s.frames.length with
    | none => rfl
    | some q => have := h.lt (bs := q.1) (p := q.2) hw; omega
  have hrun : evalDo (run P) env (.pair (listOf (loopVars xs (Exp.toVs es) (Exp.toVss ss))) (.pair (.pair t.toV (listOf (Exp.toVs rs))) (listOf (Exp.toVs bs)))) s =
      (doInit (run P) env s.frames.length (loopVars xs (Exp.toVs es) (Exp.toVss ss)) >>= fun steps =>
        run P (.doLoop s.frames.length t.toV (listOf (Exp.toVs rs)) (listOf (Exp.toVs bs)) steps)) s1 := by
    unfold evalDo
    simp only []
    have hil : isList (listOf (loopVars xs (Exp.toVs es) (Exp.toVss ss))) = true := by
      cases loopVars xs (Exp.toVs es) (Exp.toVss ss) <;> rfl
    rw [if_pos hil, bind_apply, newEnv_apply hfe, nodes_listOf]
  rw [hrun]
  have hin := sim_doInit (es := []) H xs es ss hl hl2 hss1 hes he h1 hde (by omega) (by simp [s1]) hnd (by simp) hvar
    (fun x hx => List.all_eq_true.1 hfr x hx)
  cases hr : evalList B n ρ es st with
  | unknown => trivial
  | error =>
    rw [hr] at hin
    obtain ⟨k, a, s2, hin, ho⟩ := hin
    exact ⟨k, a, s2, by rw [bind_apply, hin], ho⟩
  | val q =>
    obtain ⟨vs, st'⟩ := q
    rw [hr] at hin
    obtain ⟨hvl, s2, W2, ws, m1, m2, m3, m4, m5⟩ := hin
    have hlen2 : s.frames.length < s1.frames.length := by simp [s1]
    have hwl := m3.length
    obtain ⟨W3, r1, r2, r3, r4, r5⟩ := m4.register (pe := s.frames.length) (p := env) (xs := xs) (ys := []) (vs := vs) (ws := ws)
      (m2.fresh _ hlen2 hde) (by omega) (by simpa using m5) (by simpa using hnd) (by omega) (by omega) (ρ := ρ) (he.mono m2.le)
      (fun W3 hle _ i v w hv hw => .inr ((m3.get hv hw).mono hle))
    simp only [List.append_nil, List.map_nil] at r3 r4 r5
    have haft : After W W3 s s2 := by
      refine ⟨m2.le.trans r1, by have := m2.len; omega, fun i hi hw => ?_, fun i hi0 hi hw _ => ?_⟩
      · exact r2 i (by omega) (m2.fresh i (by omega) hw)
      · rw [m2.keep i hi0 (by omega) hw (by omega)]
        simp only [s1]
        rw [List.getElem?_append_left hi]
    have hloop := sim_doLoop (B := B) (n := n) H (Nat.le_refl n) (ss := stepsOf xs ss) (stepsOf_oks hss) (fun x hx => by
      refine ⟨hvar x (stepsOf_names x hx), ?_⟩
      obtain ⟨l, hl⟩ := zip_has (ls := List.range' st'.cells.length xs.length) (by simp) (stepsOf_names x hx)
      refine ⟨l, ?_⟩
      simp only [alloc]
      rw [lookup_append, hl]
      rfl) ht hrs hbs r3 r4
    rw [bind_apply, m1]
    simp only [Ans.bind]
    generalize evalLoop B n _ _ t rs bs _ = ans at hloop ⊢
    cases ans with
    | unknown => trivial
    | error => exact hloop
    | val q =>
      obtain ⟨b, s3, W4, t1, t2, t3, t4⟩ := hloop
      exact ⟨b, s3, W4, t1, haft.trans t2, t3, t4⟩

end Pscm.Ref
