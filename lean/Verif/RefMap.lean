import Verif.RefSim3
import Verif.EvHigherProps
/-! # The interpreter simulates the reference semantics: `map`, `for-each` and `apply` -/
namespace Pscm.Ref
open Pscm.Ev hiding Name Form evalForm
open Pscm.Ev.EM (modSt)
variable {σ : Type} {P : Prims σ} {A : Name → Int → Prop} {B : Builtins} {W W' : World} {st : Store} {s s' : St σ} {X0 : Fixed σ}

theorem StRel.quoteOk (h : StRel X0 A W st s) (env : Nat) : QuoteOk s env := (h.noMacro (x := "quote") (by decide)).quoteOk env

/-- The wrong number of quoted arguments. -/
theorem bindParams_count {env pe : Nat} (ps : List Name) (ws : List V) (he : env ≠ pe) (hpe : W pe = none) (h0 : 0 < pe) (h : StRel X0 A W st s)
    (hw : ∀ w ∈ ws, isMacro w = false) (hl : ws.length ≠ ps.length) :
    ∃ k a s', bindParams (run P) env pe (ps.map V.sym) none (ws.map quoted) s = some (.stop (.err X0.target k a), s') ∧ StRel X0 A W st s' := by
  induction ps generalizing s ws with
  | nil =>
    cases ws with
    | nil => exact absurd rfl hl
    | cons w ws => exact ⟨_, _, _, evalError_apply h.throws, h⟩
  | cons p ps ih =>
    cases ws with
    | nil => exact ⟨_, _, _, evalError_apply h.throws, h⟩
    | cons w ws =>
      simp only [List.map_cons, bindParams, bind_apply, run_quoted (h.quoteOk env), bindOwn_apply]
      exact ih ws (h.bindOwn (x := p) (w := w) hpe h0 (hw w (.head _))) (fun w h => hw w (.tail _ h)) (by simpa using hl)

theorem callBindings_eq (ps : List Name) (rest : Option Name) (ws : List V) (hc : CountOk ps rest ws.length) :
    callBindings ps rest ws = ((ps ++ rest.toList).zip (frameVals ps rest ws)).reverse := by
  cases rest with
  | none => simp [callBindings, frameVals]
  | some r =>
    have hc : ps.length ≤ ws.length := hc
    simp only [callBindings, frameVals, Option.toList]
    rw [List.zip_append (by simp [Nat.min_eq_left hc])]
    simp only [List.zip_cons_cons, List.zip_nil_right, List.reverse_append, List.reverse_cons, List.reverse_nil, List.nil_append]
    congr 2
    have : ∀ (ps : List Name) (ws : List V), ps.length ≤ ws.length → ps.zip ws = ps.zip (ws.take ps.length) := by
      intro ps
      induction ps with
      | nil => intros; rfl
      | cons p ps ih =>
        intro ws h
        cases ws with
        | nil => cases h
        | cons w ws => simp [ih ws (by simpa using h)]
    exact this ps ws hc

/-- A procedure applied to quoted values. -/
theorem sim_quoted (hI : Implements X0 P A B) {n : Nat} (H : ∀ m, m < n → SimAt X0 P A B m) {env : Nat} {f : Val} {w : V} {vs : List Val} {ws : List V}
    (hlt : env < s.frames.length) (h : StRel X0 A W st s) (hf : VRel A W f w) (hc : isProc B f = true) (hvs : VRels A W vs ws) :
    Sim X0 A (VRel A) W s (applyQuoted P (run P) env w ws s) (apply B n f vs st) := by
  cases n with
  | zero => simp only [apply]; trivial
  | succ n =>
  cases f with
  | prim x =>
    obtain ⟨a, hA, rfl⟩ := hf
    have hd : B.dom x = true := hc
    simp only [applyQuoted, bind_apply, evalArgs_quoted (h.quoteOk env), apply, hd, if_true]
    cases hap : B.ap x vs with
    | unknown => trivial
    | error =>
      obtain ⟨k, d, hk⟩ := hI.error (s := s) hA hd hap hvs h.throws
      exact ⟨k, d, s, hk, h.left⟩
    | val v =>
      obtain ⟨w, y, hw, hr, hy⟩ := hI.value (s := s) hA hd hap hvs h.ext
      rw [hw]
      exact Sim.print hr h hy
  | clo ps rest body ρ' =>
    obtain ⟨e', rfl, hat, hlam⟩ := hf
    simp only [Exp.Ok] at hlam
    obtain ⟨_, hnd, hne, hbody⟩ := hlam
    obtain ⟨es', pp, hfe⟩ := h.frame hat
    have hlt' := hat.lt h
    have hlen := hvs.length
    let s1 : St σ := { s with frames := s.frames ++ [⟨[], some e', none⟩] }
    have h1 : StRel X0 A W st s1 := h.push hlt'
    have hfr : W s.frames.length = none := by
      cases hw : W s.frames.length with
      | none => rfl
      | some q => have := h.lt (bs := q.1) (p := q.2) hw; omega
    have hrun : applyQuoted P (run P) env (.proc (paramList ps rest) (listOf (Exp.toVs body)) e') ws s =
        (bindParams (run P) env s.frames.length (ps.map V.sym) rest (ws.map quoted) >>= fun _ => evalSeq (run P) s.frames.length (Exp.toVs body)) s1 := by
      show applyProc (run P) env (paramList ps rest) (listOf (Exp.toVs body)) e' (ws.map quoted) s = _
      unfold applyProc
      rw [splitParams_paramList, bind_apply, newEnv_apply hfe]
      simp only [nodes_listOf]
      rfl
    rw [hrun]
    have hgood : CountOk ps rest ws.length →
        Sim X0 A (VRel A) W s ((bindParams (run P) env s.frames.length (ps.map V.sym) rest (ws.map quoted) >>= fun _ =>
          evalSeq (run P) s.frames.length (Exp.toVs body)) s1)
          (evalBody B n (enter (ps ++ rest.toList) (frameVs ps rest vs) body ρ' st).1 body (enter (ps ++ rest.toList) (frameVs ps rest vs) body ρ' st).2) := by
      intro hcnt
      have m1 : bindParams (run P) env s.frames.length (ps.map V.sym) rest (ws.map quoted) s1 =
          some (.ok (), { s with frames := s.frames ++ [⟨callBindings ps rest ws, some e', none⟩] }) := by
        rw [bindParams_quoted ps rest ws (h1.quoteOk env) (by omega) (by omega) hcnt,
          bindValues_apply (f := ⟨[], some e', none⟩) ps rest ws (by simp [s1]) (List.nodup_append.1 hnd).1 (by simp) hcnt]
        simp only [s1, updFrame_push, List.append_nil]
      have m4 : StRel X0 A W st { s with frames := s.frames ++ [⟨callBindings ps rest ws, some e', none⟩] } := by
        refine h.withFrames (wf_push h.wf hlt') ?_ ?_
        · intro g hg q hq
          rcases List.mem_append.1 hg with hg | hg
          · exact h.macros g hg q hq
          · simp only [List.mem_singleton] at hg
            subst hg
            simp only [callBindings_eq _ _ _ hcnt, List.mem_reverse] at hq
            exact .inr ((frame_rel (ps := ps) (rest := rest) hvs).noMacro _ (List.of_mem_zip hq).2)
        · intro i hi
          have : i < s.frames.length := by
            rcases hi with rfl | hi
            · omega
            · cases hw : W i with
              | none => exact absurd hw hi
              | some q => exact h.lt hw
          rw [List.getElem?_append_left this]
      have hfv : (frameVs ps rest vs).length = (ps ++ rest.toList).length := by
        cases rest with
        | none => simp only [frameVs, CountOk, Option.toList, List.append_nil] at hcnt ⊢; omega
        | some r =>
          have : ps.length ≤ vs.length := by have : ps.length ≤ ws.length := hcnt; omega
          simp [frameVs, Nat.min_eq_left this]
      have hfw : (frameVals ps rest ws).length = (ps ++ rest.toList).length := by
        rw [← hfv, (frame_rel (ps := ps) (rest := rest) hvs).length]
      obtain ⟨W3, r1, r2, r3, r4, r5⟩ := m4.register (pe := s.frames.length) (p := e') (xs := ps ++ rest.toList) (ys := defs body) (vs := frameVs ps rest vs)
        (ws := frameVals ps rest ws) hfr (by omega) (by simp [callBindings_eq _ _ _ hcnt]) hnd hfv hfw (ρ := ρ') hat
        (fun W3 hle _ i v w hv hw => .inr (((frame_rel hvs).get hv hw).mono hle))
      have hb := sim_lambda_body (B := B) (n := n) (fun m hm => H m (by omega)) body hbody r5
        (fun x hx => zip_has (by simp) (List.mem_append.2 (.inr hx))) (hat.mono r1) r4
      rw [bind_apply, m1]
      simp only []
      have haft : After W W3 s { s with frames := s.frames ++ [⟨callBindings ps rest ws, some e', none⟩] } := by
        refine ⟨r1, by simp, fun i hi hw => r2 i (by omega) hw, fun i hi0 hi hw _ => ?_⟩
        simp only []
        rw [List.getElem?_append_left hi]
      have hb : Sim X0 A (VRel A) W3 { s with frames := s.frames ++ [⟨callBindings ps rest ws, some e', none⟩] }
          (evalSeq (run P) s.frames.length (Exp.toVs body) { s with frames := s.frames ++ [⟨callBindings ps rest ws, some e', none⟩] }) (evalBody B n
          (enter (ps ++ rest.toList) (frameVs ps rest vs) body ρ' st).1 body (enter (ps ++ rest.toList) (frameVs ps rest vs) body ρ' st).2) := hb
      cases hans : evalBody B n (enter (ps ++ rest.toList) (frameVs ps rest vs) body ρ' st).1 body (enter (ps ++ rest.toList) (frameVs ps rest vs) body ρ' st).2 with
      | unknown => trivial
      | error => rw [hans] at hb; exact hb
      | val q =>
        rw [hans] at hb
        obtain ⟨b, s3, W4, t1, t2, t3, t4⟩ := hb
        exact ⟨b, s3, W4, t1, haft.trans t2, t3, t4⟩
    simp only [apply]
    cases rest with
    | none =>
      simp only []
      by_cases hl : vs.length = ps.length
      · rw [if_pos hl]
        have := hgood (by simp only [CountOk]; omega)
        simpa [frameVs] using this
      · rw [if_neg hl]
        obtain ⟨k, a, s2, hk, h2⟩ := bindParams_count (P := P) (pe := s.frames.length) ps ws (env := env) (by omega) hfr (by omega) h1 hvs.noMacro (by omega)
        exact ⟨k, a, s2, by rw [bind_apply, hk], h2.left⟩
    | some r =>
      simp only []
      by_cases hl : ps.length ≤ vs.length
      · rw [if_pos hl]
        exact hgood (by simp only [CountOk]; omega)
      · rw [if_neg hl]
        trivial
  | _ => cases hc

/-! ## Lists -/

theorem items_rel {v : Val} {w : V} (h : VRel A W v w) {vs : List Val} (hv : v.items = some vs) : ∃ ws, VRels A W vs ws ∧ w = listOf ws := by
  induction v generalizing w vs with
  | nil => cases hv; cases h; exact ⟨[], .nil, rfl⟩
  | pair a d _ ihd =>
    obtain ⟨a', d', rfl, ha, hd⟩ := h
    simp only [Val.items] at hv
    split at hv
    · rename_i us hu
      cases hv
      obtain ⟨ws, h1, rfl⟩ := ihd hd hu
      exact ⟨a' :: ws, .cons ha h1, rfl⟩
    · cases hv
  | _ => cases hv

theorem isList_listOf (ws : List V) : isList (listOf ws) = true := by cases ws <;> rfl

/-- Lists of values, and the elements of the lists. -/
inductive ColRel (A : Name → Int → Prop) (W : World) : List Val → List (List V) → Prop
  | nil : ColRel A W [] []
  | cons {v vs us ws wss} : v.items = some us → VRels A W us ws → ColRel A W vs wss → ColRel A W (v :: vs) (ws :: wss)

/-- The lists of arguments. -/
inductive RowRel (A : Name → Int → Prop) (W : World) : List (List Val) → List (List V) → Prop
  | nil : RowRel A W [] []
  | cons {r rs u us} : VRels A W r u → RowRel A W rs us → RowRel A W (r :: rs) (u :: us)

theorem RowRel.mono (h : W.le W') {rs us} (k : RowRel A W rs us) : RowRel A W' rs us := by
  induction k with
  | nil => exact .nil
  | cons h1 _ ih => exact .cons (h1.mono h) ih

theorem RowRel.length {rs us} (k : RowRel A W rs us) : rs.length = us.length := by
  induction k with
  | nil => rfl
  | cons h1 _ ih => simp [ih]

theorem rowsOf_items {vs : List Val} {rows : List (List Val)} (h : rowsOf vs = some rows) : ∀ v ∈ vs, ∃ us, v.items = some us ∧ us.length = rows.length := by
  induction vs generalizing rows with
  | nil => intro v hv; cases hv
  | cons v vs ih =>
    cases vs with
    | nil =>
      simp only [rowsOf] at h
      split at h
      · rename_i xs hx
        cases h
        intro u hu
        simp only [List.mem_singleton] at hu
        subst hu
        exact ⟨xs, hx, by simp⟩
      · cases h
    | cons v' vs =>
      simp only [rowsOf] at h
      split at h
      · rename_i xs rs hx hr
        split at h
        · rename_i hl
          cases h
          have hlen : (List.zipWith List.cons xs rs).length = rs.length := by simp [hl]
          intro u hu
          rw [hlen]
          rcases List.mem_cons.1 hu with rfl | hu
          · exact ⟨xs, hx, hl⟩
          · exact ih hr u hu
        · cases h
      · cases h

theorem single_rel {us : List Val} {ws : List V} (h : VRels A W us ws) : RowRel A W (us.map fun x => [x]) (ws.map fun x => [x]) := by
  induction h with
  | nil => exact .nil
  | cons h1 _ ih => exact .cons (.cons h1 .nil) ih

theorem zip_rel {us : List Val} {ws : List V} {rs : List (List Val)} {us' : List (List V)} (h : VRels A W us ws) (k : RowRel A W rs us') :
    RowRel A W (List.zipWith List.cons us rs) (List.zipWith (fun x r => x :: r) ws us') := by
  induction h generalizing rs us' with
  | nil => exact .nil
  | cons h1 _ ih =>
    cases k with
    | nil => exact .nil
    | cons k1 k2 => exact .cons (.cons h1 k1) (ih k2)

theorem rows_rel {vs : List Val} {wss : List (List V)} {rows : List (List Val)} (h : ColRel A W vs wss) (hr : rowsOf vs = some rows) :
    RowRel A W rows (Pscm.Ev.rows wss) := by
  induction h generalizing rows with
  | nil => cases hr
  | @cons v vs us ws wss h1 h2 h3 ih =>
    cases h3 with
    | nil =>
      simp only [rowsOf, h1] at hr
      cases hr
      exact single_rel h2
    | cons k1 k2 k3 =>
      simp only [rowsOf, h1] at hr
      split at hr
      · rename_i xs rs hx hrs
        cases hx
        split at hr
        · cases hr
          exact zip_rel h2 (ih hrs)
        · cases hr
      · cases hr

/-- Evaluating the lists. -/
theorem sim_lists {n : Nat} (H : ∀ m, m < n → SimAt X0 P A B m) {env : Nat} {ρ : Env} (es : List Exp) (hok : Exp.Oks es) (he : EnvAt W env ρ)
    (h : StRel X0 A W st s) :
    match evalList B n ρ es st with
    | .unknown => True
    | .error _ => (∃ k a s', evalLists (run P) env (Exp.toVs es) s = some (.stop (.err X0.target k a), s')) ∧
        ∃ k a s', forEachArgs (run P) env es.length (Exp.toVs es) s = some (.stop (.err X0.target k a), s')
    | .val (vs, st') => vs.length = es.length ∧ ((∀ v ∈ vs, ∃ us, v.items = some us) → ∃ wss s' W', evalLists (run P) env (Exp.toVs es) s = some (.ok wss, s') ∧
        forEachArgs (run P) env es.length (Exp.toVs es) s = some (.ok wss, s') ∧
        After W W' s s' ∧ ColRel A W' vs wss ∧ StRel X0 A W' st' s') := by
  induction es generalizing n W st s with
  | nil =>
    cases n with
    | zero => simp only [evalList]
    | succ n => simp only [evalList]; exact ⟨rfl, fun _ => ⟨[], s, W, rfl, rfl, .refl, .nil, h⟩⟩
  | cons e es ih =>
    cases n with
    | zero => simp only [evalList]
    | succ n =>
      have hok := oks_cons hok
      have hs := H n (Nat.lt_succ_self n) hok.1 he h
      simp only [evalList]
      cases hr : eval B n ρ e st with
      | unknown => simp only [Ans.bind]
      | error =>
        rw [hr] at hs
        obtain ⟨k, a, s', hs, _⟩ := hs
        exact ⟨⟨k, a, s', by simp only [Exp.toVs, evalLists, bind_apply, hs]⟩, k, a, s', by simp only [Exp.toVs, List.length_cons, forEachArgs, bind_apply, hs]⟩
      | val q =>
        obtain ⟨v, st1⟩ := q
        rw [hr] at hs
        obtain ⟨w, s1, W1, h1, h2, h3, h4⟩ := hs
        have hih := ih (n := n) (fun m hm => H m (by omega)) hok.2 (he.mono h2.le) h4
        simp only [Ans.bind]
        cases hr2 : evalList B n ρ es st1 with
        | unknown => trivial
        | error =>
          rw [hr2] at hih
          obtain ⟨⟨k, a, s', hih⟩, k2, a2, s2, hih2⟩ := hih
          by_cases hl : isList w = true
          · exact ⟨⟨k, a, s', by simp only [Exp.toVs, evalLists, bind_apply, h1, hl, if_true, hih]⟩,
              k2, a2, s2, by simp only [Exp.toVs, List.length_cons, forEachArgs, bind_apply, h1, hl, if_true, hih2]⟩
          · refine ⟨⟨?_, ?_, ?_, ?_⟩, ?_, ?_, ?_, ?_⟩
            rotate_left 3
            · simp only [Exp.toVs, evalLists, bind_apply, h1]
              rw [if_neg hl]
              exact evalError_apply h4.throws
            rotate_left 3
            · simp only [Exp.toVs, List.length_cons, forEachArgs, bind_apply, h1]
              rw [if_neg hl]
              exact evalError_apply h4.throws
        | val q =>
          obtain ⟨vs, st2⟩ := q
          rw [hr2] at hih
          obtain ⟨hl, hih⟩ := hih
          refine ⟨by simp [hl], fun hv => ?_⟩
          obtain ⟨wss, s2, W2, m1, m1', m2, m3, m4⟩ := hih fun v hm => hv v (.tail _ hm)
          obtain ⟨us, hus⟩ := hv v (.head _)
          obtain ⟨ws, g1, rfl⟩ := items_rel h3 hus
          refine ⟨ws :: wss, s2, W2, ?_, ?_, h2.trans m2, .cons hus (g1.mono m2.le) m3, m4⟩
          · simp only [Exp.toVs, evalLists, bind_apply, h1, isList_listOf, if_true, m1, nodes_listOf]
            rfl
          · simp only [Exp.toVs, List.length_cons, forEachArgs, bind_apply, h1, isList_listOf, if_true, m1', nodes_listOf]
            rfl

/-- The calls of `map`. -/
theorem sim_rows (hI : Implements X0 P A B) {n : Nat} (H : ∀ m, m < n → SimAt X0 P A B m) {env : Nat} {f : Val} {w : V} {rs : List (List Val)} {us : List (List V)}
    (hlt : env < s.frames.length) (h : StRel X0 A W st s) (hf : VRel A W f w) (hc : isProc B f = true) (hr : RowRel A W rs us) :
    Sim X0 A (VRels A) W s (mapRows P (run P) env w us s) (applyAll B n f rs st) := by
  induction rs generalizing n st s W us with
  | nil =>
    cases hr
    cases n with
    | zero => simp only [applyAll]; trivial
    | succ n => simp only [applyAll]; exact Sim.ret .nil h
  | cons r rs ih =>
    cases hr with
    | cons h1 h2 =>
    cases n with
    | zero => simp only [applyAll]; trivial
    | succ n =>
      simp only [applyAll, mapRows]
      refine Sim.bind (sim_quoted (n := n) hI (fun m hm => H m (by omega)) hlt h hf hc h1) fun W1 s1 v w1 st1 ha hv h' => ?_
      refine Sim.bind (ih (n := n) (fun m hm => H m (by omega)) (by have := ha.len; omega) h' (hf.mono ha.le) (h2.mono ha.le)) fun W2 s2 vs ws st2 ha2 hvs h2' => ?_
      exact Sim.ret (.cons (hv.mono ha2.le) hvs) h2'

theorem sim_map (hI : Implements X0 P A B) {n : Nat} (H : ∀ m, m < n → SimAt X0 P A B m) (Hn : SimAt X0 P A B n) {env : Nat} {ρ : Env} {f : Exp} {ls : List Exp}
    (hok : (Exp.map f ls).Ok) (he : EnvAt W env ρ) (h : StRel X0 A W st s) (hform : run P (.eval env (Exp.toV (.map f ls))) s = evalMap P (run P) env (f.toV :: Exp.toVs ls) s) :
    Sim X0 A (VRel A) W s (run P (.eval env (Exp.toV (.map f ls))) s) (eval B (n + 1) ρ (.map f ls) st) := by
  simp only [Exp.Ok] at hok
  obtain ⟨hf, hne, hls⟩ := hok
  rw [hform]
  simp only [eval]
  cases ls with
  | nil => exact absurd rfl hne
  | cons l ls =>
    have hrun : evalMap P (run P) env (f.toV :: Exp.toVs (l :: ls)) s = (run P (.eval env f.toV) >>= fun f =>
        if isApplicable f = true then evalLists (run P) env (Exp.toVs (l :: ls)) >>= fun cols => mapRows P (run P) env f (rows cols) >>= fun vs => pure (listOf vs)
        else evalError "map: first argument must be a procedure") s := rfl
    rw [hrun]
    refine Sim.bind (Hn hf he h) fun W1 s1 v w st1 ha hv h1 => ?_
    by_cases hc : isProc B v = true
    · simp only [hc, if_true]
      have hap : isApplicable w = true := by
        cases v with
        | prim x => obtain ⟨a, _, rfl⟩ := hv; rfl
        | clo ps rest body ρ' => obtain ⟨e', rfl, _⟩ := hv; rfl
        | _ => cases hc
      rw [if_pos hap]
      have hsl := sim_lists H (l :: ls) hls (he.mono ha.le) h1
      cases hr : evalList B n ρ (l :: ls) st1 with
      | unknown => trivial
      | error =>
        rw [hr] at hsl
        obtain ⟨⟨k, a, s', hk⟩, _⟩ := hsl
        exact ⟨k, a, s', by rw [bind_apply, hk], .open⟩
      | val q =>
        obtain ⟨vs, st2⟩ := q
        rw [hr] at hsl
        obtain ⟨_, hsl⟩ := hsl
        simp only [Ans.vague, Ans.bind]
        cases hrows : rowsOf vs with
        | none => trivial
        | some rows =>
          obtain ⟨wss, s2, W2, m1, _, m2, m3, m4⟩ := hsl fun v hv => (rowsOf_items hrows v hv).imp fun _ h => h.1
          have hlt : env < s2.frames.length := by
            have := he.lt h
            have := ha.len
            have := m2.len
            omega
          have hrest : Sim X0 A (VRel A) W2 s2 ((mapRows P (run P) env w (Pscm.Ev.rows wss) >>= fun vs => pure (listOf vs)) s2)
              ((applyAll B n v rows st2).bind fun (ws, st) => .val (Val.list ws, st)) :=
            Sim.bind (sim_rows hI H hlt m4 (hv.mono m2.le) hc (rows_rel m3 hrows)) fun W3 s3 vs ws st3 ha3 hvs h3 => Sim.ret (list_rel hvs) h3
          rw [bind_apply, m1]
          simp only []
          change Sim X0 A (VRel A) W1 s1 _ ((applyAll B n v rows st2).bind fun (ws, st) => .val (Val.list ws, st))
          generalize (applyAll B n v rows st2).bind _ = ans at hrest ⊢
          cases ans with
          | unknown => trivial
          | error => exact hrest
          | val q =>
            obtain ⟨b, s3, W4, t1, t2, t3, t4⟩ := hrest
            exact ⟨b, s3, W4, t1, m2.trans t2, t3, t4⟩
    · simp only [hc]
      trivial

/-! ## `for-each` -/

theorem not_nil {v : Val} {w : V} (h : VRel A W v w) (hv : v ≠ .nil) : w ≠ .nil := by
  rintro rfl
  cases v <;> first | exact hv rfl | (simp [VRel] at h)

theorem hasNil_rel {vs : List Val} {ws : List V} (h : VRels A W vs ws) (hv : hasNil vs = false) : ∀ w ∈ ws, w ≠ .nil := by
  induction h with
  | nil => intro w hw; cases hw
  | @cons v vs w ws h1 h2 ih =>
    have : v ≠ .nil ∧ hasNil vs = false := by
      cases v <;> first | (simp [hasNil] at hv; done) | exact ⟨by simp, by simpa [hasNil] using hv⟩
    intro u hu
    rcases List.mem_cons.1 hu with rfl | hu
    · exact not_nil h1 this.1
    · exact ih this.2 u hu

theorem rows_heads {cols : List (List V)} {k : Nat} (hne : cols ≠ []) (hk : ∀ c ∈ cols, c.length = k + 1) :
    Pscm.Ev.rows cols = (cols.map fun c => c.headD .nil) :: Pscm.Ev.rows (cols.map List.tail) := by
  rw [rows_eq cols hne, tuples_cons hne hk, rows_eq (cols.map List.tail) (by simpa using hne)]

theorem sim_each (hI : Implements X0 P A B) {n : Nat} (H : ∀ m, m < n → SimAt X0 P A B m) {env : Nat} {f : Val} {w : V} {rs : List (List Val)} {cols : List (List V)}
    {m : Nat} (hk : takes m f = true) (hlt : env < s.frames.length) (h : StRel X0 A W st s) (hf : VRel A W f w) (hne : cols ≠ []) (hlen : ∀ c ∈ cols, c.length = rs.length)
    (hr : RowRel A W rs (Pscm.Ev.rows cols)) (hnil : rs.any hasNil = false) :
    Sim X0 A (VRel A) W s (forEachLoop (run P) env w (rs.length + 1) cols s) ((applyAll B n f rs st).bind fun (_, st) => .val (.unspecified, st)) := by
  induction rs generalizing n st s W cols with
  | nil =>
    cases n with
    | zero => simp only [applyAll]; trivial
    | succ n =>
      have hall : cols.all exhausted = true := by
        rw [List.all_eq_true]
        intro c hc
        have := hlen c hc
        cases c with
        | nil => rfl
        | cons => simp at this
      simp only [applyAll, List.length_nil, forEachLoop, hall, if_true, Ans.bind]
      exact Sim.ret rfl h
  | cons r rs ih =>
    cases n with
    | zero => simp only [applyAll]; trivial
    | succ n =>
      have hlen' : ∀ c ∈ cols, c.length = rs.length + 1 := hlen
      rw [rows_heads hne hlen'] at hr
      cases hr with
      | cons h1 h2 =>
      simp only [List.any_cons, Bool.or_eq_false_iff] at hnil
      have hex : ∀ c ∈ cols, exhausted c = false := by
        intro c hc
        have hl := hlen' c hc
        cases c with
        | nil => simp at hl
        | cons x xs =>
          have := hasNil_rel h1 hnil.1 x (List.mem_map.2 ⟨_, hc, rfl⟩)
          cases x <;> first | exact absurd rfl this | rfl
      have hany : cols.any exhausted = false := by
        rw [List.any_eq_false]
        intro c hc
        simp [hex c hc]
      have hall : cols.all exhausted = false := by
        cases cols with
        | nil => exact absurd rfl hne
        | cons c cs => simp [hex c (.head _)]
      have hcall : run P (.eval env (.pair w (listOf (cols.map fun c => quoted (c.headD .nil))))) s =
          applyQuoted P (run P) env w (cols.map fun c => c.headD .nil) s := by
        cases f with
        | clo ps rest body ρ' =>
          obtain ⟨e', rfl, _⟩ := hf
          rw [run_eq]
          show applyProc (run P) env _ _ _ (nodes (listOf _)) s = applyProc (run P) env _ _ _ _ s
          rw [nodes_listOf, List.map_map]
          rfl
        | _ => cases hk
      have hproc : isProc B f = true := by
        cases f with
        | clo ps rest body ρ' => rfl
        | _ => cases hk
      have hloop : forEachLoop (run P) env w ((r :: rs).length + 1) cols s =
          (run P (.eval env (.pair w (listOf (cols.map fun c => quoted (c.headD .nil))))) >>= fun _ => forEachLoop (run P) env w (rs.length + 1) (cols.map List.tail)) s := by
        simp only [List.length_cons, forEachLoop, hall, hany, Bool.false_eq_true, if_false]
      rw [hloop]
      have hsplit : ((applyAll B (n + 1) f (r :: rs) st).bind fun (_, st) => (.val (.unspecified, st) : Ans (Val × Store))) =
          (apply B n f r st).bind fun (_, st) => (applyAll B n f rs st).bind fun (_, st) => .val (.unspecified, st) := by
        simp only [applyAll]
        cases apply B n f r st with
        | unknown => rfl
        | error => rfl
        | val q =>
          simp only [Ans.bind]
          cases applyAll B n f rs q.2 <;> rfl
      rw [hsplit]
      have hq := sim_quoted (n := n) hI (fun m hm => H m (by omega)) hlt h hf hproc h1
      rw [← hcall] at hq
      refine Sim.bind hq fun W1 s1 v w1 st1 ha hv h' => ?_
      exact ih (n := n) (fun m hm => H m (by omega)) (by have := ha.len; omega) h' (hf.mono ha.le) (by simpa using hne) (by
        intro c hc
        obtain ⟨d, hd, rfl⟩ := List.mem_map.1 hc
        simp [hlen' d hd]) (h2.mono ha.le) hnil.2

theorem nodes_paramList (ps : List Name) : (nodes (paramList ps none)).length = ps.length := by
  have : paramList ps none = listOf (ps.map V.sym) := by
    induction ps with
    | nil => rfl
    | cons p ps ih => simp only [paramList, List.map_cons, listOf, ih]
  rw [this, nodes_listOf, List.length_map]

theorem sim_for (hI : Implements X0 P A B) {n : Nat} (H : ∀ m, m < n → SimAt X0 P A B m) (Hn : SimAt X0 P A B n) {env : Nat} {ρ : Env} {f : Exp} {ls : List Exp}
    (hok : (Exp.forEach f ls).Ok) (he : EnvAt W env ρ) (h : StRel X0 A W st s)
    (hform : run P (.eval env (Exp.toV (.forEach f ls))) s = evalForEach (run P) env (f.toV :: Exp.toVs ls) s) :
    Sim X0 A (VRel A) W s (run P (.eval env (Exp.toV (.forEach f ls))) s) (eval B (n + 1) ρ (.forEach f ls) st) := by
  simp only [Exp.Ok] at hok
  obtain ⟨hf, hne, h10, hls⟩ := hok
  rw [hform]
  simp only [eval, evalForEach]
  refine Sim.bind (Hn hf he h) fun W1 s1 v w st1 ha hv h1 => ?_
  by_cases hc : takes ls.length v = true
  · simp only [hc, if_true]
    have hcount : forEachCount w (Exp.toVs ls) = some ls.length := by
      cases v with
      | clo ps rest body ρ' =>
        obtain ⟨e', rfl, _⟩ := hv
        cases rest with
        | some r => cases hc
        | none =>
          simp only [takes, decide_eq_true_eq] at hc
          simp only [forEachCount, nodes_paramList, hc]
      | _ => cases hc
    rw [hcount]
    simp only []
    rw [if_neg (by omega)]
    have hsl := sim_lists H ls hls (he.mono ha.le) h1
    cases hr : evalList B n ρ ls st1 with
    | unknown => trivial
    | error =>
      rw [hr] at hsl
      obtain ⟨_, k, a, s', hk⟩ := hsl
      exact ⟨k, a, s', by rw [bind_apply, hk], .open⟩
    | val q =>
      obtain ⟨vs, st2⟩ := q
      rw [hr] at hsl
      obtain ⟨hvl, hsl⟩ := hsl
      simp only [Ans.vague, Ans.bind]
      cases hrows : rowsOf vs with
      | none => trivial
      | some rows =>
        simp only []
        cases hnil : rows.any hasNil with
        | true => trivial
        | false =>
        simp only [Bool.false_eq_true, if_false]
        obtain ⟨wss, s2, W2, -, m1, m2, m3, m4⟩ := hsl fun v hv => (rowsOf_items hrows v hv).imp fun _ h => h.1
        have hlt : env < s2.frames.length := by
          have := he.lt h
          have := ha.len
          have := m2.len
          omega
        have hcols : wss ≠ [] ∧ ∀ c ∈ wss, c.length = rows.length := by
          have hit := rowsOf_items hrows
          have hv0 : vs ≠ [] := by
            rintro rfl
            cases hrows
          clear hrows hnil hr m1 hsl
          constructor
          · cases m3 with
            | nil => exact absurd rfl hv0
            | cons => simp
          · clear hv0 hvl
            induction m3 with
            | nil => intro c hc; cases hc
            | @cons v vs us ws wss k1 k2 k3 ih =>
              intro c hc
              rcases List.mem_cons.1 hc with rfl | hc
              · obtain ⟨us', hu, hl⟩ := hit v (.head _)
                rw [k1] at hu
                cases hu
                rw [← k2.length, hl]
              · exact ih (fun v hv => hit v (.tail _ hv)) c hc
        have hhead : (wss.headD []).length = rows.length := by
          cases wss with
          | nil => exact absurd rfl hcols.1
          | cons c cs => exact hcols.2 c (.head _)
        have hrest := sim_each (n := n) hI H hc hlt m4 (hv.mono m2.le) hcols.1 hcols.2 (rows_rel m3 hrows) hnil
        rw [bind_apply, m1]
        simp only []
        rw [hhead]
        change Sim X0 A (VRel A) W1 s1 _ ((applyAll B n v rows st2).bind fun (_, st) => .val (.unspecified, st))
        generalize (applyAll B n v rows st2).bind _ = ans at hrest ⊢
        cases ans with
        | unknown => trivial
        | error => exact hrest
        | val q =>
          obtain ⟨b, s3, W4, t1, t2, t3, t4⟩ := hrest
          exact ⟨b, s3, W4, t1, m2.trans t2, t3, t4⟩
  · simp only [hc]
    trivial

/-! ## `apply` -/

theorem sim_applyForm (hI : Implements X0 P A B) {n : Nat} (H : ∀ m, m < n → SimAt X0 P A B m) (Hn : SimAt X0 P A B n) {env : Nat} {ρ : Env} {f l : Exp}
    (hok : (Exp.apply f l).Ok) (he : EnvAt W env ρ) (h : StRel X0 A W st s)
    (hform : run P (.eval env (Exp.toV (.apply f l))) s = evalApply P (run P) env [f.toV, l.toV] s) :
    Sim X0 A (VRel A) W s (run P (.eval env (Exp.toV (.apply f l))) s) (eval B (n + 1) ρ (.apply f l) st) := by
  simp only [Exp.Ok] at hok
  rw [hform]
  simp only [eval, evalApply]
  refine Sim.bind (Hn hok.1 he h) fun W1 s1 v w st1 ha hv h1 => ?_
  by_cases hc : isProc B v = true
  · simp only [hc, if_true]
    have hgo : Sim X0 A (VRel A) W1 s1 ((run P (.eval env l.toV) >>= fun v => if isList v = true then (applyTo P (run P) env w ((nodes v).map quoted)) else
          evalError "apply: last argument must be a list") s1)
        ((eval B n ρ l st1).bind fun (u, st) => match u.items with | some vs => apply B n v vs st | none => .unknown) := by
      refine Sim.bind (Hn hok.2 (he.mono ha.le) h1) fun W2 s2 u x st2 ha2 hu h2 => ?_
      simp only []
      cases hi : u.items with
      | none => trivial
      | some vs =>
        obtain ⟨ws, hvs, rfl⟩ := items_rel hu hi
        rw [isList_listOf, if_pos rfl, nodes_listOf]
        have hlt : env < s2.frames.length := by
          have := he.lt h
          have := ha.len
          have := ha2.len
          omega
        have hq := sim_quoted (n := n) hI H hlt h2 (hv.mono ha2.le) hc hvs
        have heq : applyTo P (run P) env w (ws.map quoted) s2 = applyQuoted P (run P) env w ws s2 := by
          cases v with
          | prim x =>
            obtain ⟨a, hA, rfl⟩ := hv
            obtain ⟨n1, n2, n3, n4⟩ := hI.plain hA hc
            simp only [applyTo, applyQuoted]
            rw [if_neg (by simp [n1, n2]), if_neg (by simp [n4])]
          | clo ps rest body ρ' => obtain ⟨e', rfl, _⟩ := hv; rfl
          | _ => cases hc
        rw [heq]
        exact hq
    cases v with
    | prim x => obtain ⟨a, hA, rfl⟩ := hv; exact hgo
    | clo ps rest body ρ' => obtain ⟨e', rfl, _⟩ := hv; exact hgo
    | _ => cases hc
  · simp only [hc]
    trivial

end Pscm.Ref
