import Verif.RefCatchSpec
import Verif.ScriptRun
import Verif.EvControlProps
/-! # Guarded evaluations: simulation -/
namespace Pscm.Ref
open Pscm.Ev hiding Name Form evalForm StRel
open Pscm.Ev.EM (modSt)
open Pscm.Scr (inside entered left enter_rel leave_rel)
variable {σ : Type} {P : Prims σ} {B : Builtins} {W W' : World} {st st' : Store} {s s' : St σ} {X0 : Fixed σ} {A : Name → Int → Prop}

theorem run_lam (h : StRel X0 A W st s) {env : Nat} {ps : List Name} {rest : Option Name} {body : List Exp} (hb : body ≠ []) :
    run P (.eval env (Exp.lam ps rest body).toV) s = some (.ok (.proc (paramList ps rest) (listOf (Exp.toVs body)) env), s) := by
  show run P (.eval env (.pair (.sym "lambda") (.pair (paramList ps rest) (listOf (Exp.toVs body))))) s = _
  rw [run_form h (f := .lambda) (by decide)]
  show evalLambda env (.pair (paramList ps rest) (listOf (Exp.toVs body))) s = _
  have hne := toVs_ne hb
  have hbody : mkBody (listOf (Exp.toVs body)) = listOf (Exp.toVs body) := by
    cases hc : Exp.toVs body with
    | nil => exact absurd hc hne
    | cons y ys => rfl
  unfold evalLambda
  simp only [uncons, hbody]
  cases ps <;> cases rest <;> rfl

/-- The call of a thunk. -/
theorem run_thunk (h : StRel X0 A W st s) {body : List Exp} (hb : body ≠ []) :
    run P (.eval 0 (Exp.app (.lam [] none body) []).toV) s = applyProc (run P) 0 .nil (listOf (Exp.toVs body)) 0 [] s := by
  rw [run_eq]
  show (run P (.eval 0 (Exp.lam [] none body).toV) >>= fun f => run P (.eval 0 (.pair f .nil))) s = _
  rw [bind_apply, run_lam h hb]
  show run P (.eval 0 (.pair (.proc .nil (listOf (Exp.toVs body)) 0) .nil)) s = _
  rw [run_eq]
  rfl

/-- While the handler of the activation `id` runs, outside all other `catch` expressions. -/
def handling (X0 : Fixed σ) (id : Nat) : Fixed σ := ⟨X0.ext, [], id :: X0.live, none, fun _ => rfl⟩

/-- The state in which the handler is called. -/
def caught (id : Nat) (s : St σ) : St σ := { s with live := s.live.dropWhile (· ≠ id), catches := s.catches.tail }

theorem caught_rel {id : Nat} (hX : X0.catches = []) (h : StRel (inside X0 id) A W st s) : StRel (handling X0 id) A W st (caught id s) where
  wf := h.wf
  rib := h.rib
  inj := h.inj
  macros := h.macros
  modMacros := h.modMacros
  curRoot := h.curRoot
  catches := by
    obtain ⟨h1, h2⟩ := h.catches
    refine ⟨?_, ?_⟩
    · show s.catches.tail = _
      rw [h1]; simp [inside, hX, handling]
    · show s.live.dropWhile (· ≠ id) = _
      rw [h2]
      simp [inside, handling]
  ext := h.ext
  kept := h.kept
  top := h.top

/-- The state after the handler has returned. -/
def handled (id : Nat) (s : St σ) : St σ := { s with live := (s.live.dropWhile (· ≠ id)).tail }

theorem handled_rel {id : Nat} (hX : X0.catches = []) (h : StRel (handling X0 id) A W st s) : StRel X0 A W st (handled id s) where
  wf := h.wf
  rib := h.rib
  inj := h.inj
  macros := h.macros
  modMacros := h.modMacros
  curRoot := h.curRoot
  catches := by
    obtain ⟨h1, h2⟩ := h.catches
    refine ⟨?_, ?_⟩
    · show s.catches = _
      rw [h1, hX]; rfl
    · show (s.live.dropWhile (· ≠ id)).tail = _
      rw [h2]
      simp [handling]
  ext := h.ext
  kept := h.kept
  top := h.top

theorem listOf_noMacro (ws : List V) : isMacro (listOf ws) = false := by cases ws <;> rfl

theorem toVs_one (e : Exp) : Exp.toVs [e] = [e.toV] := by simp [Exp.toVs]

/-- The call of the handler. -/
theorem sim_handler (hI : Implements X0 P A B) (n : Nat) {a : Name} {hd : Exp} (ha : IsVar a) (hok : hd.Ok) (h : StRel X0 A W st s) (ws : List V) :
    Sim X0 A (VRel A) W s (applyProcV (run P) (.sym a) (listOf [hd.toV]) 0 ws s) (eval B n (alloc [a] [.undefined] [] st).1 hd (alloc [a] [.undefined] [] st).2) := by
  obtain ⟨es, md, h0, _⟩ := h.top
  have hlen : 0 < s.frames.length := (List.getElem?_eq_some_iff.1 h0).1
  have hW : W s.frames.length = none := by
    cases hw : W s.frames.length with
    | none => rfl
    | some q => exact absurd (h.lt (bs := q.1) (p := q.2) hw) (Nat.lt_irrefl _)
  have h1 := (h.push hlen).bindOwn (pe := s.frames.length) (x := a) (w := listOf ws) hW hlen (listOf_noMacro ws)
  have hfr : updFrame (s.frames ++ [⟨[], some 0, none⟩]) s.frames.length (upsert a (listOf ws)) = s.frames ++ [⟨[(a, listOf ws)], some 0, none⟩] := by
    rw [updFrame_push]; rfl
  have e1 : applyProcV (run P) (.sym a) (listOf [hd.toV]) 0 ws s =
      run P (.eval s.frames.length hd.toV) { s with frames := s.frames ++ [⟨[(a, listOf ws)], some 0, none⟩] } := by
    unfold applyProcV
    simp only [bind_apply, newEnv_apply h0]
    show (match bindValues s.frames.length [] (some a) ws { s with frames := s.frames ++ [⟨[], some 0, none⟩] } with
      | some (.ok a, s') => evalSeq (run P) s.frames.length (nodes (listOf [hd.toV])) s' | some (.stop e, s') => some (.stop e, s') | none => none) = _
    have := bindValues_apply (s := { s with frames := s.frames ++ [⟨[], some 0, none⟩] }) (pe := s.frames.length) (f := ⟨[], some 0, none⟩) [] (some a) ws (by simp) (by simp)
      (by simp) (by simp [CountOk])
    simp only [List.map_nil] at this
    rw [this]
    simp only [updFrame_push, callBindings, List.zip_nil_left, List.nil_append, List.length_nil, List.drop_zero, List.reverse_cons, List.reverse_nil, List.append_nil, nodes_listOf, evalSeq]
  rw [e1]
  simp only [hfr] at h1
  obtain ⟨W1, hle, hnone, hat, hrel, _⟩ := h1.register (pe := s.frames.length) (p := 0) (xs := [a]) (ys := []) (vs := [.undefined]) (ws := [listOf ws]) hW hlen
    (by simp) (by simp) rfl rfl .top (by
      intro W' _ _ i v w hv _
      match i with
      | 0 => simp at hv; exact .inl hv.symm
      | i + 1 => simp at hv)
  have hs := sim hI n hok hat hrel
  have conv : ∀ r, Sim X0 A (VRel A) W1 { s with frames := s.frames ++ [⟨[(a, listOf ws)], some 0, none⟩] }
      (run P (.eval s.frames.length hd.toV) { s with frames := s.frames ++ [⟨[(a, listOf ws)], some 0, none⟩] }) r →
      Sim X0 A (VRel A) W s (run P (.eval s.frames.length hd.toV) { s with frames := s.frames ++ [⟨[(a, listOf ws)], some 0, none⟩] }) r := by
    intro r hr
    cases r with
    | unknown => trivial
    | error o => exact hr
    | val q =>
      obtain ⟨b, s', W', hm, haf, hv, hst⟩ := hr
      refine ⟨b, s', W', hm, ?_, hv, hst⟩
      refine ⟨fun e q hq => haf.le e q (hle e q hq), ?_, ?_, ?_⟩
      · have := haf.len; simp at this; omega
      · intro i hi hw
        exact haf.fresh i (by simp; omega) (hnone i (by omega) hw)
      · intro i h0 hi hw hx
        rw [haf.keep i h0 (by simp; omega) (hnone i (by omega) hw) hx]
        show (s.frames ++ _)[i]? = _
        rw [List.getElem?_append_left hi]
  exact conv _ hs

theorem registered_catch {a : Int} (h : Registered "catch" a) : a = -2 := by
  obtain ⟨r, hr, h1, h2⟩ := h
  have : ∀ r ∈ registry, r.name = "catch" → r.arity = -2 := by decide +kernel
  rw [← h2]
  exact this r hr h1

/-- `(catch #t thunk handler)` up to the call of the thunk. -/
theorem run_catch (h : StRel X0 Registered W st s) (hX : X0.catches = []) (hg : st.globals.lookup "catch" = some (.prim "catch")) {body : List Exp} {a : Name} {hd : Exp}
    (hb : body ≠ []) :
    run P (.eval 0 (Item.guarded body a hd).toV) s =
      EM.handle (applyProc (run P) 0 .nil (listOf (Exp.toVs body)) 0 []) (fun o =>
        match o with
        | .ok v => do
          popCatch
          leave s.next
          pure v
        | .stop (.err (some t) k e) =>
          if t = s.next then runHandler (run P) s.next (.sym a) (listOf [hd.toV]) 0 k e
          else EM.stop (.err (some t) k e)
        | .stop x => EM.stop x) (entered s) := by
  have hv : IsVar "catch" := by decide
  show run P (.eval 0 (.pair (.sym "catch") (listOf [.bool true, (Exp.lam [] none body).toV, (Exp.lam [] (some a) [hd]).toV]))) s = _
  rw [h.run_call .top hv, bind_apply]
  obtain hu | ⟨w, hw, hr⟩ := h.look_some hv .top (v := .prim "catch") (by simpa [look] using hg)
  · rcases hu with hu | hu <;> cases hu
  obtain ⟨ar, hA, rfl⟩ := hr
  cases registered_catch hA
  have hl : lookupSymbol 0 "catch" s = some (.ok (.func "catch" (-2)), s) := by
    unfold lookupSymbol
    simp only [getSt_bind, hw]
    rfl
  rw [hl]
  show run P (.eval 0 (.pair (.func "catch" (-2)) (listOf _))) s = _
  have hargs : ArgsEval (Evals P) 0 [.bool true, (Exp.lam [] none body).toV, (Exp.lam [] (some a) [hd]).toV] s
      (.ok [.bool true, .proc .nil (listOf (Exp.toVs body)) 0, .proc (.sym a) (listOf [hd.toV]) 0]) s := by
    refine .cons ⟨1, rfl⟩ (.cons (evals_iff.2 (run_lam h hb)) (.cons (evals_iff.2 ?_) .nil))
    rw [run_lam h (by simp), toVs_one]
    rfl
  rw [run_func hargs (.inl rfl)]
  show runCatch (run P) (.bool true) .nil (listOf (Exp.toVs body)) 0 (.sym a) (listOf [hd.toV]) 0 s = _
  unfold runCatch
  rw [getSt_bind, if_neg (by rw [h.catches.1, hX]; simp)]
  rfl

/-- The outcome of an item. -/
def Agrees (X0 : Fixed σ) (A : Name → Int → Prop) (m : Option (Out V × St σ)) : Ans (Val × Store) → Prop
  | .unknown => True
  | .error _ => ∃ k a s', m = some (.stop (.err none k a), s')
  | .val (v, st') => ∃ w s' W', m = some (.ok w, s') ∧ VRel A W' v w ∧ StRel X0 A W' st' s'

theorem sim_item (hI : ∀ X : Fixed σ, Implements X P Registered B) (n : Nat) {i : Item} (hok : i.Ok Registered) (h : StRel X0 Registered W st s) (hX : X0.catches = []) (ht : X0.target = none) :
    Agrees X0 Registered (run P (.eval 0 i.toV) s) (evalItem B n st i) := by
  cases i with
  | form f =>
    have hs := sim_form (hI X0) n hok h
    simp only [evalItem]
    cases he : evalForm B n st f with
    | unknown => trivial
    | error o =>
      rw [he] at hs
      obtain ⟨k, a, s', hm, _⟩ := hs
      exact ⟨k, a, s', by rw [ht] at hm; exact hm⟩
    | val q =>
      obtain ⟨v, st'⟩ := q
      rw [he] at hs
      obtain ⟨w, s', W', hm, _, hv, hr⟩ := hs
      exact ⟨w, s', W', hm, hv, hr⟩
  | guarded body a hd =>
    obtain ⟨hb, ha, hh⟩ := hok
    have hb' := hb
    simp only [Exp.Ok] at hb'
    have hne := hb'.2.2.1
    simp only [evalItem]
    split
    · rename_i hg
      have hs := sim (hI (inside X0 s.next)) n (e := .app (.lam [] none body) []) (by simp only [Exp.Ok, Exp.Oks]; exact ⟨by simpa only [Exp.Ok] using hb, trivial⟩) .top (enter_rel h)
      rw [run_thunk (enter_rel h) hne] at hs
      rw [run_catch h hX hg hne]
      cases he : eval B n [] (.app (.lam [] none body) []) st with
      | unknown => trivial
      | val q =>
        obtain ⟨v, st'⟩ := q
        rw [he] at hs
        obtain ⟨w, s', W', hm, _, hv, hr⟩ := hs
        refine ⟨w, left s.next s', W', ?_, hv, leave_rel hr⟩
        simp only [EM.handle, hm]
        rfl
      | error o =>
        cases o with
        | none => trivial
        | some st' =>
          rw [he] at hs
          obtain ⟨k, e, s', hm, hL⟩ := hs
          obtain ⟨W1, h1⟩ := hL st' rfl
          have h2 := caught_rel hX h1
          have h3 := sim_handler (hI (handling X0 s.next)) n ha hh h2 (handlerArgs k e)
          have hrun : EM.handle (applyProc (run P) 0 .nil (listOf (Exp.toVs body)) 0 []) (fun o =>
              match o with
              | .ok v => do
                popCatch
                leave s.next
                pure v
              | .stop (.err (some t) k e) =>
                if t = s.next then runHandler (run P) s.next (.sym a) (listOf [hd.toV]) 0 k e
                else EM.stop (.err (some t) k e)
              | .stop x => EM.stop x) (entered s) = runHandler (run P) s.next (.sym a) (listOf [hd.toV]) 0 k e s' := by
            simp only [EM.handle, hm]
            show (if s.next = s.next then _ else _ : EM σ V) s' = _
            rw [if_pos rfl]
          rw [hrun]
          have hrh : runHandler (run P) s.next (.sym a) (listOf [hd.toV]) 0 k e s' =
              EM.handle (applyProcV (run P) (.sym a) (listOf [hd.toV]) 0 (handlerArgs k e)) (fun o =>
                match o with
                | .ok v => do
                  leave s.next
                  pure v
                | .stop (.err (some t) k a) => if t = s.next then EM.stop .unmod else EM.stop (.err (some t) k a)
                | .stop x => EM.stop x) (caught s.next s') := rfl
          rw [hrh]
          dsimp only
          cases he2 : eval B n (alloc [a] [.undefined] [] st').1 hd (alloc [a] [.undefined] [] st').2 with
          | unknown => trivial
          | error o2 =>
            rw [he2] at h3
            obtain ⟨k2, e2, s3, hm3, _⟩ := h3
            refine ⟨k2, e2, s3, ?_⟩
            simp only [EM.handle, hm3]
            rfl
          | val q =>
            obtain ⟨v, st2⟩ := q
            rw [he2] at h3
            obtain ⟨w, s3, W3, hm3, _, hv, hr⟩ := h3
            refine ⟨w, handled s.next s3, W3, ?_, hv, handled_rel hX hr⟩
            simp only [EM.handle, hm3]
            rfl
    · trivial

theorem sim_items (hI : ∀ X : Fixed σ, Implements X P Registered B) (n : Nat) (is : List Item) (hok : ∀ i ∈ is, i.Ok Registered) (h : StRel X0 Registered W st s) (hX : X0.catches = [])
    (ht : X0.target = none) : Agrees X0 Registered (evalSeq (run P) 0 (is.map Item.toV) s) (evalItems B n st is) := by
  induction is generalizing W st s with
  | nil => trivial
  | cons i is ih =>
    cases is with
    | nil =>
      simp only [evalItems, List.map_cons, List.map_nil, evalSeq]
      exact sim_item hI n (hok i (.head _)) h hX ht
    | cons j is =>
      simp only [evalItems, List.map_cons, evalSeq]
      have h1 := sim_item hI n (hok i (.head _)) h hX ht
      cases he : evalItem B n st i with
      | unknown => trivial
      | error o =>
        rw [he] at h1
        obtain ⟨k, a, s', hm⟩ := h1
        exact ⟨k, a, s', by rw [bind_apply, hm]⟩
      | val q =>
        obtain ⟨v, st'⟩ := q
        rw [he] at h1
        obtain ⟨w, s', W', hm, _, hr⟩ := h1
        rw [bind_apply, hm]
        exact ih (fun k hk => hok k (.tail _ hk)) hr

end Pscm.Ref
