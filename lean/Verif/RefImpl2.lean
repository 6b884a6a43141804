import Verif.RefImpl
/-! # The builtins of the interpreter implement their specification: the theorem -/
namespace Pscm.Ref
open Pscm.Ev hiding Name Form evalForm
variable {σ : Type} {P : Prims σ} {F : FArith} {W : World} {s : St σ}

theorem impl_plus (hP : HasStd P F) : Impl P "+" :=
  impl_fold hP (by decide) (by decide) rfl hP.plus fun a b h => by
    show numRes (scmAdd F (.int a) (.int b)) = _
    simp [scmAdd, needsFloat, NumV.isFloat, binInt, i64_word h, numRes]

theorem impl_times (hP : HasStd P F) : Impl P "*" :=
  impl_fold hP (by decide) (by decide) rfl hP.times fun a b h => by
    show numRes (scmMul F (.int a) (.int b)) = _
    simp [scmMul, needsFloat, NumV.isFloat, NumV.isRatio, binInt, i64_word h, numRes]

theorem impl_minus (hP : HasStd P F) : Impl P "-" := by
  have hcall : ∀ ns : List Int, stdCall F "-" (ns.map V.num) = numRes (minus F (ns.map .int)) := by
    intro ns
    have : listCall "-" (ns.map V.num) = none := by
      unfold listCall
      split <;> simp_all
    have this2 : moreCall "-" (ns.map V.num) = none := by
      match ns with
      | [] => rfl
      | [_] => rfl
      | _ :: _ :: _ => rfl
    unfold stdCall
    rw [this, this2, numsOf_nums]
    show numCall F "-" (ns.map .int) = _
    unfold numCall
    split <;> simp_all
  refine impl_list hP (by decide) (by decide) fun {W vs ws} hvs => ?_
  show (∀ u, onInts _ vs = .val u → _) ∧ (onInts _ vs = .error → _)
  unfold onInts
  cases hn : ints vs with
  | none => exact ⟨fun u h => (by cases h), fun h => (by cases h)⟩
  | some ns =>
    rw [ints_rel hvs hn, hcall]
    simp only []
    match ns with
    | [] => exact ⟨fun u h => (by cases h), fun _ => ⟨_, rfl⟩⟩
    | [n] =>
      refine ⟨fun u hu => ?_, fun h => ?_⟩
      · simp only [] at hu
        split at hu
        · rename_i hw
          cases hu
          refine ⟨.num (-n), ?_, rfl⟩
          have := (c01_minus F n hw.1 []).2.2.1 (by have := hw.2; unfold Word at this; omega)
          simp only [List.map_cons, List.map_nil, this, numRes]
        · cases hu
      · simp only [] at h
        split at h <;> cases h
    | n :: m :: ns =>
      refine ⟨fun u hu => ?_, fun h => ?_⟩
      · simp only [] at hu
        split at hu
        · refine ⟨_, ?_, by rw [running_val hu]; rfl⟩
          have := minus_run (F := F) hu
          simp only [List.map_cons, minus]
          simp only [List.map_cons] at this
          rw [this]
          rfl
        · cases hu
      · simp only [] at h
        split at h
        · exact absurd h running_noErr
        · cases h

theorem listCall_none {x : Name} (hx : x ∈ ["=", "<", ">", "<=", ">=", "zero?", "positive?", "negative?", "even?", "odd?", "quotient", "remainder", "modulo"])
    (ws : List V) : listCall x ws = none ∧ moreCall x ws = none := by
  simp only [List.mem_cons, List.not_mem_nil, or_false] at hx
  constructor
  · unfold listCall
    split <;> simp_all
  · rcases hx with rfl | rfl | rfl | rfl | rfl | rfl | rfl | rfl | rfl | rfl | rfl | rfl | rfl
    all_goals
      match ws with
      | [] => rfl
      | [_] => rfl
      | _ :: _ :: _ => rfl

theorem impl_compares (hP : HasStd P F) : Impl P "=" ∧ Impl P "<" ∧ Impl P ">" ∧ Impl P "<=" ∧ Impl P ">=" := by
  refine ⟨impl_compare hP (op := .eq) (by decide) (by decide) rfl (listCall_none (by decide)) (fun ns => ?_) fun a b => ?_,
    impl_compare hP (op := .lt) (by decide) (by decide) rfl (listCall_none (by decide)) (fun ns => ?_) fun a b => ?_,
    impl_compare hP (op := .gt) (by decide) (by decide) rfl (listCall_none (by decide)) (fun ns => ?_) fun a b => ?_,
    impl_compare hP (op := .le) (by decide) (by decide) rfl (listCall_none (by decide)) (fun ns => ?_) fun a b => ?_,
    impl_compare hP (op := .ge) (by decide) (by decide) rfl (listCall_none (by decide)) (fun ns => ?_) fun a b => ?_⟩
  all_goals first
    | rfl
    | (unfold numCall; split <;> simp_all; done)
    | (simp [cmpNumber, needsFloat, NumV.isFloat, binInt]; done)

theorem impl_tests (hP : HasStd P F) : Impl P "zero?" ∧ Impl P "positive?" ∧ Impl P "negative?" ∧ Impl P "even?" ∧ Impl P "odd?" := by
  have hn : ∀ (p : Int → Bool) v u, (∀ n, v ≠ .num n) → intTest p v ≠ .val u := by
    intro p v u h
    cases v with
    | num n => exact absurd rfl (h n)
    | _ => intro h; cases h
  refine ⟨impl_test hP (p := isZeroP F) (by decide) (by decide) rfl (listCall_none (by decide)) (fun a => rfl) (fun n u h => ?_) (fun n h => by cases h) (hn _)
      ⟨_, rfl⟩,
    impl_test hP (p := isPositiveP F) (by decide) (by decide) rfl (listCall_none (by decide)) (fun a => rfl) (fun n u h => ?_) (fun n h => by cases h) (hn _)
      ⟨_, rfl⟩,
    impl_test hP (p := isNegativeP F) (by decide) (by decide) rfl (listCall_none (by decide)) (fun a => rfl) (fun n u h => ?_) (fun n h => by cases h) (hn _)
      ⟨_, rfl⟩,
    impl_test hP (p := isEvenP F) (by decide) (by decide) rfl (listCall_none (by decide)) (fun a => rfl) (fun n u h => ?_) (fun n h => ?_) (fun v u h k => ?_)
      ⟨_, rfl⟩,
    impl_test hP (p := isOddP F) (by decide) (by decide) rfl (listCall_none (by decide)) (fun a => rfl) (fun n u h => ?_) (fun n h => ?_) (fun v u h k => ?_)
      ⟨_, rfl⟩⟩
  · cases h; exact ⟨_, rfl, (c09_sign F n).1⟩
  · cases h; exact ⟨_, rfl, (c09_sign F n).2.1⟩
  · cases h; exact ⟨_, rfl, (c09_sign F n).2.2⟩
  · simp only [] at h
    split at h
    · rename_i hb; cases h; exact ⟨_, rfl, (c06_parity_partial F n hb).1⟩
    · cases h
  · simp only [] at h
    split at h <;> cases h
  · cases v with
    | num n => exact absurd rfl (h n)
    | _ => cases k
  · simp only [] at h
    split at h
    · rename_i hb
      cases h
      refine ⟨_, rfl, ?_⟩
      rw [(c06_parity_partial F n hb).2]
      congr 1
      have : (n % 2 ≠ 0) ↔ n % 2 = 1 := by omega
      simp [this]
    · cases h
  · simp only [] at h
    split at h <;> cases h
  · cases v with
    | num n => exact absurd rfl (h n)
    | _ => cases k

theorem not_over {a b : Int} (h : InI64 (a.tdiv b)) : ¬ (a = -(2 : Int) ^ 63 ∧ b = -1) := by
  rintro ⟨rfl, rfl⟩
  revert h
  decide

theorem impl_divisions (hP : HasStd P F) : Impl P "quotient" ∧ Impl P "remainder" ∧ Impl P "modulo" := by
  have ho : ∀ a : NumV, quotientP .other a = .err .evalError ∧ remainderP .other a = .err .evalError ∧ moduloP .other a = .err .evalError ∧
      quotientP a .other = .err .evalError ∧ remainderP a .other = .err .evalError ∧ moduloP a .other = .err .evalError := by
    intro a; cases a <;> exact ⟨rfl, rfl, rfl, rfl, rfl, rfl⟩
  have hdiv : ∀ a b : Int, b ≠ 0 → InI64 a → InI64 b → InI64 (a.tdiv b) →
      quotientP (.int a) (.int b) = .ok (.int (a.tdiv b)) ∧ remainderP (.int a) (.int b) = .ok (.int (a.tmod b)) ∧
      moduloP (.int a) (.int b) = .ok (.int (a.fmod b)) := by
    intro a b hb ha hb' hq
    obtain ⟨q, r, m, h1, h2, h3, h4, h5, h6, h7, ⟨k, h8⟩, h9, h10⟩ := c02_division a b ha hb' hb (not_over hq)
    have hq' : quotientP (.int a) (.int b) = .ok (.int (a.tdiv b)) := by
      simp [quotientP, hb, div64, i64_ok hq]
    rw [h1] at hq'
    have e : q = a.tdiv b := by injection hq' with h; injection h
    have hr : r = a.tmod b := by
      have := Int.mul_tdiv_add_tmod a b
      rw [e] at h4
      omega
    rw [h1, h2, h3, ← e, ← hr, ← fmod_unique h8 h9 h10 hb]
    exact ⟨rfl, rfl, rfl⟩
  refine ⟨impl_division hP (p := quotientP) (by decide) (by decide) rfl (listCall_none (by decide)) (fun a b => rfl) (fun a b h1 h2 h3 h4 => (hdiv a b h1 h2 h3 h4).1)
      (fun a => (c02_edges a).1) (fun a => (ho a).1) fun a => (ho a).2.2.2.1,
    impl_division hP (p := remainderP) (by decide) (by decide) rfl (listCall_none (by decide)) (fun a b => rfl) (fun a b h1 h2 h3 h4 => (hdiv a b h1 h2 h3 h4).2.1)
      (fun a => (c02_edges a).2.1) (fun a => (ho a).2.1) fun a => (ho a).2.2.2.2.1,
    impl_division hP (p := moduloP) (by decide) (by decide) rfl (listCall_none (by decide)) (fun a b => rfl) (fun a b h1 h2 h3 h4 => (hdiv a b h1 h2 h3 h4).2.2)
      (fun a => (c02_edges a).2.2.1) (fun a => (ho a).2.2.1) fun a => (ho a).2.2.2.2.2⟩

theorem VRel.isPair {v : Val} {w : V} (h : VRel Registered W v w) (hv : ∀ a d, v ≠ .pair a d) : ∀ a d, w ≠ .pair a d := by
  rintro a d rfl
  cases v with
  | pair a d => exact hv a d rfl
  | undefined => cases h
  | unassigned => cases h
  | prim x => obtain ⟨_, _, h⟩ := h; cases h
  | clo => obtain ⟨_, h, _⟩ := h; cases h
  | _ => cases h

theorem VRel.isNil {v : Val} {w : V} (h : VRel Registered W v w) : w = .nil ↔ v = .nil := by
  constructor
  · rintro rfl
    cases v with
    | pair a d => obtain ⟨_, _, h, _⟩ := h; cases h
    | undefined => cases h
    | unassigned => cases h
    | prim x => obtain ⟨_, _, h⟩ := h; cases h
    | clo => obtain ⟨_, h, _⟩ := h; cases h
    | nil => rfl
    | _ => cases h
  · rintro rfl; exact h

theorem impl_lists (hP : HasStd P F) : Impl P "cons" ∧ Impl P "car" ∧ Impl P "cdr" ∧ Impl P "list" ∧ Impl P "null?" ∧ Impl P "pair?" ∧ Impl P "not" ∧
    Impl P "length" ∧ Impl P "reverse" := by
  refine ⟨impl_binary hP (by decide) (by decide) rfl fun {W v1 v2 w1 w2} h1 h2 => ⟨fun u hu => ?_, fun he => by cases he⟩,
    impl_unary hP (by decide) (by decide) rfl fun {W v w} h => ?_,
    impl_unary hP (by decide) (by decide) rfl fun {W v w} h => ?_,
    impl_list hP (by decide) (by decide) fun {W vs ws} h => ⟨fun u hu => ?_, fun he => by cases he⟩,
    impl_unary hP (by decide) (by decide) rfl fun {W v w} h => ?_,
    impl_unary hP (by decide) (by decide) rfl fun {W v w} h => ?_,
    impl_unary hP (by decide) (by decide) rfl fun {W v w} h => ⟨fun u hu => ?_, fun he => by cases he⟩,
    impl_unary hP (by decide) (by decide) rfl fun {W v w} h => ?_,
    impl_unary hP (by decide) (by decide) rfl fun {W v w} h => ?_⟩
  · cases hu; exact ⟨_, rfl, _, _, rfl, h1, h2⟩
  · by_cases hv : ∃ a d, v = .pair a d
    · obtain ⟨a, d, rfl⟩ := hv
      obtain ⟨a', d', rfl, ha, hd⟩ := h
      exact ⟨fun u hu => by cases hu; exact ⟨a', rfl, ha⟩, fun he => by cases he⟩
    · have hw := h.isPair fun a d e => hv ⟨a, d, e⟩
      refine ⟨fun u hu => ?_, fun _ => ⟨.typeError, ?_⟩⟩
      · cases v <;> first | exact absurd ⟨_, _, rfl⟩ hv | cases hu
      · cases w <;> first | rfl | exact absurd rfl (hw _ _)
  · by_cases hv : ∃ a d, v = .pair a d
    · obtain ⟨a, d, rfl⟩ := hv
      obtain ⟨a', d', rfl, ha, hd⟩ := h
      exact ⟨fun u hu => by cases hu; exact ⟨d', rfl, hd⟩, fun he => by cases he⟩
    · have hw := h.isPair fun a d e => hv ⟨a, d, e⟩
      refine ⟨fun u hu => ?_, fun _ => ⟨.typeError, ?_⟩⟩
      · cases v <;> first | exact absurd ⟨_, _, rfl⟩ hv | cases hu
      · cases w <;> first | rfl | exact absurd rfl (hw _ _)
  · cases hu
    refine ⟨listOf ws, ?_, list_rel h⟩
    have : listCall "list" ws = some (.ok (listOf ws)) := by
      unfold listCall
      split <;> simp_all
    unfold stdCall
    rw [this]
  · by_cases hv : v = .nil
    · subst hv
      cases h
      exact ⟨fun u hu => by cases hu; exact ⟨_, rfl, rfl⟩, fun he => by cases he⟩
    · have hw : w ≠ .nil := fun e => hv (h.isNil.1 e)
      refine ⟨fun u hu => ⟨.bool false, ?_, ?_⟩, fun he => ?_⟩
      · cases w <;> first | rfl | exact absurd rfl hw
      · cases v <;> first | (cases hu; rfl) | exact absurd rfl hv
      · cases v <;> first | cases he | exact absurd rfl hv
  · by_cases hv : ∃ a d, v = .pair a d
    · obtain ⟨a, d, rfl⟩ := hv
      obtain ⟨a', d', rfl, ha, hd⟩ := h
      exact ⟨fun u hu => by cases hu; exact ⟨_, rfl, rfl⟩, fun he => by cases he⟩
    · have hw := h.isPair fun a d e => hv ⟨a, d, e⟩
      refine ⟨fun u hu => ⟨.bool false, ?_, ?_⟩, fun he => ?_⟩
      · cases w <;> first | rfl | exact absurd rfl (hw _ _)
      · cases v <;> first | (cases hu; rfl) | exact absurd ⟨_, _, rfl⟩ hv
      · cases v <;> first | cases he | exact absurd ⟨_, _, rfl⟩ hv
  · cases hu
    exact ⟨_, rfl, by rw [h.truthy]; rfl⟩
  · cases hv : v.elems with
    | none => exact ⟨fun u hu => (by simp only [hv] at hu; cases hu), fun he => (by simp only [hv] at he; cases he)⟩
    | some vs =>
      obtain ⟨ws, rfl, hws⟩ := elems_rel h hv
      refine ⟨fun u hu => ?_, fun he => ?_⟩
      · simp only [hv] at hu
        split at hu
        · rename_i hlt
          cases hu
          refine ⟨.num vs.length, ?_, rfl⟩
          rw [hws.length] at hlt ⊢
          cases ws with
          | nil => rfl
          | cons a ws =>
            show some (if (nodes (listOf (a :: ws))).length < 2 ^ 31 then Res.ok (V.num (nodes (listOf (a :: ws))).length) else .ub) = _
            rw [nodes_listOf, if_pos hlt]
        · cases hu
      · simp only [hv] at he
        split at he <;> cases he
  · cases hv : v.elems with
    | none => exact ⟨fun u hu => (by simp only [hv] at hu; cases hu), fun he => (by simp only [hv] at he; cases he)⟩
    | some vs =>
      obtain ⟨ws, rfl, hws⟩ := elems_rel h hv
      refine ⟨fun u hu => ?_, fun he => by simp only [hv] at he; cases he⟩
      simp only [hv] at hu
      cases hu
      refine ⟨listOf ws.reverse, ?_, list_rel hws.reverse⟩
      cases ws with
      | nil => rfl
      | cons a ws =>
        show some (Res.ok (listOf (nodes (listOf (a :: ws))).reverse)) = _
        rw [nodes_listOf]

end Pscm.Ref
