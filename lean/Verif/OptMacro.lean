import Verif.RefImpl3
import Verif.RefMono
import Verif.EvMacroProps
import Verif.EvQuasiProps
/-! # The option macros of the initial state: lemmas for C139 -/
namespace Pscm.Ref
open Pscm.Ev hiding Name Form evalForm
variable {σ : Type} {P : Prims σ} {F : FArith} {B : Builtins} {W W' : World} {st st' : Store} {s s' : St σ} {X0 : Fixed σ}

/-- The two builtins of the options. -/
def optionNames : List Name := ["read-options-interface", "debug-options-interface"]

/-- The standard builtins, and the builtin `f`, which returns `os` when it is called without arguments. -/
def withOptions (f : Name) (os : List Datum) : Builtins where
  dom := fun x => decide (x = f) || standard.dom x
  ap := fun x vs => if x = f then (if vs.length = 0 then .val (Val.list (os.map Datum.toVal)) else .unknown) else standard.ap x vs
  prints := fun _ _ => []

theorem data_rel {A : Name → Int → Prop} (os : List Datum) : VRels A W (os.map Datum.toVal) (os.map Datum.toV) := by
  induction os with
  | nil => exact .nil
  | cons o os ih => exact .cons (datum_rel o) ih

theorem option_arity {f : Name} (hf : f ∈ optionNames) {a : Int} (h : Registered f a) : a = -2 := by
  obtain ⟨r, hr, rfl, rfl⟩ := h
  have : registry.all (fun r => !decide (r.name ∈ optionNames) || decide (r.arity = -2)) = true := by decide +kernel
  have := List.all_eq_true.1 this r hr
  simpa [hf] using this

theorem option_call {f : Name} (hf : f ∈ optionNames) {ws : List V} {s : St σ} :
    callFunc P (run P) f (-2) ws s = runPrim (run P) (P.call f ws s.ext) s := by
  have h : ∀ y ∈ optionNames, (y ≠ "values" ∧ y ≠ "force" ∧ y ≠ "catch" ∧ y ≠ "throw" ∧ y ≠ "eval" ∧ y ≠ "load" ∧ y ≠ "primitive-load" ∧
      y ≠ "macroexpand-1" ∧ y ≠ "macroexpand" ∧ isModPrim y = false ∧ isUnmodelled y = false) ∧ isEvalOnly y = false ∧ y ≠ "call/cc" ∧
      y ≠ "call-with-current-continuation" := by decide
  obtain ⟨⟨h1, h2, h3, h4, h5, h6, h7, h8, h9, h10, h11⟩, h12, h13, h14⟩ := h f hf
  unfold callFunc
  rw [if_neg (by decide), if_neg (by decide), if_pos rfl, if_neg (by simp [h12]), if_neg (by simp [h13, h14])]
  unfold callPrim
  simp only [h1, h2, h3, h4, h5, h6, h7, h8, h9, h10, h11, if_false, or_self, Bool.false_eq_true]
  rfl

theorem option_plain {f : Name} (hf : f ∈ optionNames) : f ≠ "apply" ∧ f ≠ "map" ∧ f ≠ "map-in-order" ∧ isCallCC f = false := by
  have : ∀ y ∈ optionNames, y ≠ "apply" ∧ y ≠ "map" ∧ y ≠ "map-in-order" ∧ isCallCC y = false := by decide
  exact this f hf

theorem options_implements (hP : HasStd P F) {f : Name} (hf : f ∈ optionNames) {os : List Datum}
    {x0 : σ} (hq : P.call f [] x0 = .done (.ok (listOf (os.map Datum.toV))) x0) : Implements (.bare x0) P Registered (withOptions f os) where
  plain := by
    intro x a hr hd
    by_cases hx : x = f
    · subst hx; exact option_plain hf
    · exact (std_implements hP (X0 := .bare x0)).plain hr (by simpa [withOptions, hx] using hd)
  value := by
    intro x a vs v W ws s hr hd hv hvs evs hs
    by_cases hx : x = f
    · subst hx
      cases option_arity hf hr
      simp only [withOptions, if_true] at hv
      split at hv
      · rename_i hl
        cases vs with
        | cons _ _ => cases hl
        | nil =>
          cases hvs
          cases hv
          have hs : s.ext = x0 := hs
          refine ⟨_, x0, ?_, list_rel (data_rel os), rfl⟩
          rw [option_call hf, hs, hq]
          rfl
      · cases hv
    · obtain ⟨w, y, h1, h2, h3⟩ := (std_implements hP (X0 := .bare x0)).value hr (by simpa [withOptions, hx] using hd) (by simpa [withOptions, hx] using hv) hvs hs
      exact ⟨w, y, h1, h2, h3⟩
  error := by
    intro x a vs W ws s hr hd hv hvs hc
    by_cases hx : x = f
    · subst hx
      simp only [withOptions, if_true] at hv
      split at hv <;> cases hv
    · exact (std_implements hP (X0 := .bare x0)).error hr (by simpa [withOptions, hx] using hd) (by simpa [withOptions, hx] using hv) hvs hc

/-! ## The use of a macro -/

/-- Symbols that are not the name of a macro, anywhere in operator position. -/
def noMacroHead : V → Bool
  | .pair a d => (match a with | .sym x => decide (x ∉ macroNames) | _ => true) && noMacroHead a && noMacroHead d
  | _ => true

theorem noHead_of {M : Name → Prop} (hM : ∀ x, M x → x ∈ macroNames) : ∀ {t : V}, noMacroHead t = true → NoHead M t := by
  intro t
  induction t with
  | pair a d iha ihd =>
    intro h
    simp only [noMacroHead, Bool.and_eq_true] at h
    refine .pair ?_ (iha h.1.2) (ihd h.2)
    rintro x rfl hx
    have := h.1.1
    simp only [decide_eq_true_eq] at this
    exact this (hM x hx)
  | _ => intro _; exact .atom (by intro a d h; cases h)

theorem frameMacro_names (h : StRel X0 Registered W st s) {e : Nat} {x : Name} (hx : FrameMacro s e x) : x ∈ macroNames := by
  obtain ⟨f, v, hf, hv, hm⟩ := hx
  rcases h.macros f (List.mem_iff_getElem?.2 ⟨_, hf⟩) (x, v) (mem_of_lookup' hv) with h | h
  · exact h
  · rw [hm] at h; cases h
where
  mem_of_lookup' {es : List (Name × V)} {x : Name} {v : V} (h : es.lookup x = some v) : (x, v) ∈ es := by
    induction es with
    | nil => cases h
    | cons e es ih =>
      obtain ⟨y, u⟩ := e
      simp only [List.lookup] at h
      split at h
      · rename_i hxy
        have : x = y := by simpa using hxy
        subst this
        cases h
        exact .head _
      · exact .tail _ (ih h)

/-- The value of a parameter of the macro. -/
theorem run_param {S : St σ} {n : Nat} {es : List (Name × V)} {x : Name} {v : V} (hx : IsVar x) (hf : S.frames[n]? = some ⟨es, some 0, none⟩)
    (hl : es.lookup x = some v) (hwf : FramesWF S.frames) : run P (.eval n (.sym x)) S = some (.ok v, S) := by
  rw [run_var hx]
  have hs : envSearch S n x = some v := by
    have : lookChain S.frames n x = some v := by
      rw [lookChain_iff hwf]
      exact ⟨n, .here hf hl⟩
    unfold envSearch
    rw [this]
  unfold lookupSymbol
  simp only [getSt_bind, hs]
  rfl

/-- The use of a macro whose expansion is the call `(f arg)` of an option builtin. -/
theorem option_use {m f : Name} {ps : List Name} {rest : Option Name} {T : V} {forms : List V} {arg : Exp} {v : Val}
    (hI : Implements X0 P Registered B) (h : StRel X0 Registered W st s) (hm : m ∈ macroNames)
    (hmac : initMacros.lookup m = some (macroOf ps rest [qq T] 0)) (hnd : (ps ++ rest.toList).Nodup) (hc : CountOk ps rest forms.length)
    (hfm : ∀ q ∈ callBindings ps rest forms, isMacro q.2 = false)
    (hq : ∀ S : St σ, FramesWF S.frames → S.frames[s.frames.length]? = some ⟨callBindings ps rest forms, some 0, none⟩ →
      quasi (run P) s.frames.length T 1 S = some (.ok (listOf [.sym f, arg.toV]), S))
    (hno : noMacroHead (listOf [.sym f, arg.toV]) = true)
    (hf : f ∈ optionNames) (hg : st.globals.lookup f = some (.prim f)) (hok : arg.Ok) (hmean : EvalsTo B [] arg st v st') :
    ∃ W' w s1, StRel X0 Registered W' st' s1 ∧ VRel Registered W' v w ∧
      ∀ o s', Evals P 0 (macroUse m forms) s o s' ↔ runPrim (run P) (P.call f [w] s1.ext) s1 = some (o, s') := by
  obtain ⟨es, md, h0, _⟩ := h.top
  have hmat : MacroAt s 0 m (macroOf ps rest [qq T] 0) := by
    refine .own h0 ?_
    have := h.kept m hm
    rw [lookOwn_zero h0, hmac] at this
    exact this
  have hpos : 0 < s.frames.length := (List.getElem?_eq_some_iff.1 h0).1
  have h1 : StRel X0 Registered W st { s with frames := s.frames ++ [⟨callBindings ps rest forms, some 0, none⟩] } := by
    refine h.withFrames (wf_push h.wf hpos) ?_ ?_
    · intro fr hfr q hq
      rcases List.mem_append.1 hfr with hfr | hfr
      · exact h.macros fr hfr q hq
      · simp only [List.mem_singleton] at hfr
        subst hfr
        exact .inr (hfm q hq)
    · intro i hi
      have : i < s.frames.length := by
        rcases hi with rfl | hi
        · exact hpos
        · cases hw : W i with
          | none => exact absurd hw hi
          | some q => exact h.lt hw
      rw [List.getElem?_append_left this]
  have hx : SeqEval (Evals P) s.frames.length [qq T]
      { s with frames := s.frames ++ [⟨callBindings ps rest forms, some 0, none⟩] } (.ok (listOf [.sym f, arg.toV]))
      { s with frames := s.frames ++ [⟨callBindings ps rest forms, some 0, none⟩] } :=
    .last ((evals_quasi (h1.noMacro (by decide))).2 (hq _ h1.wf (by simp)))
  have huse := fun o s' => c60_use_partial (P := P) (o := o) (s' := s') hmat hnd hc h0 hx
    (noHead_of (fun x hx => frameMacro_names h1 hx) hno) (show CallForm (listOf [.sym f, arg.toV]) from ⟨.sym f, .pair arg.toV .nil, rfl, .inl rfl⟩)
  -- the call
  have hfv : IsVar f := by
    have : ∀ y ∈ optionNames, IsVar y := by
      intro y hy
      simp only [optionNames, List.mem_cons, List.not_mem_nil, or_false] at hy
      rcases hy with rfl | rfl
      · exact ⟨by decide, by decide, by decide⟩
      · exact ⟨by decide, by decide, by decide⟩
    exact this f hf
  generalize ({ s with frames := s.frames ++ [⟨callBindings ps rest forms, some 0, none⟩] } : St σ) = s0 at h1 hx huse
  have hvar := sim (P := P) hI 1 (e := .var f) (by simpa [Exp.Ok] using hfv) .top h1
  have hev : eval B 1 [] (.var f) st = .val (.prim f, st) := by simp only [eval, look, List.lookup, hg]
  rw [hev] at hvar
  obtain ⟨wf, s2, W2, hrun2, _, ⟨a, hA, rfl⟩, h2⟩ := hvar
  cases option_arity hf hA
  obtain ⟨n, hn⟩ := hmean
  have harg := sim (P := P) hI n hok .top h2
  rw [hn] at harg
  obtain ⟨w, s3, W3, hrun3, _, hrel, h3⟩ := harg
  refine ⟨W3, w, s3, h3, hrel, fun o s' => ?_⟩
  rw [huse o s', evals_iff]
  have hcall : run P (.eval 0 (listOf [.sym f, arg.toV])) s0 = runPrim (run P) (P.call f [w] s3.ext) s3 := by
    show run P (.eval 0 (.pair (.sym f) (listOf [arg.toV]))) s0 = _
    have hrun2' : run P (.eval 0 (.sym f)) s0 = some (.ok (.func f (-2)), s2) := by simpa [Exp.toV] using hrun2
    rw [h1.run_call .top hfv, bind_apply, ← run_var (P := P) hfv, hrun2']
    obtain ⟨n1, n2, n3, n4⟩ := option_plain hf
    simp only []
    rw [run_eq]
    show evalFuncCall P (run P) 0 f (-2) (listOf [arg.toV]) s2 = _
    unfold evalFuncCall
    rw [if_neg n1, if_neg (by simp [n2, n3]), if_neg (by simp [n4]), nodes_listOf]
    simp only [evalArgs, bind_apply, hrun3, pure_apply]
    exact option_call hf
  rw [hcall]

end Pscm.Ref
