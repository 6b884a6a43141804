import Verif.MemNumLemmas
/-!
# C150: the numeric builtins compute on data; programs of all builtins of the reference semantics

As C148 and C149, for the functions of `number.cc`; then for programs that use any of the builtins of C138.
-/
namespace Pscm
open Spec Mem

/-- The builtins. -/
def numBuiltins : List String :=
  ["+", "*", "-", "=", "<", ">", "<=", ">=", "zero?", "positive?", "negative?", "even?", "odd?", "quotient", "remainder", "modulo", "abs", "max", "min", "gcd", "lcm"]

namespace Mem

theorem ap_even : Ref.stdAp "even?" = Ref.unary fun
    | .num n => if n.natAbs ≤ 2 ^ 53 then .val (.bool (n % 2 = 0)) else .unknown
    | _ => .error := rfl

theorem ap_odd : Ref.stdAp "odd?" = Ref.unary fun
    | .num n => if n.natAbs ≤ 2 ^ 53 then .val (.bool (n % 2 = 1)) else .unknown
    | _ => .error := rfl

theorem ap_abs : Ref.stdAp "abs" = Ref.unary fun
    | .num n => if Ref.Word n ∧ Ref.Word (-n) then .val (.num n.natAbs) else .unknown
    | _ => .unknown := rfl

theorem onInts_val {f : List Int → Ref.Ret Ref.Val} {us : List Ref.Val} {v : Ref.Val} (h : Ref.onInts f us = .val v) : ∃ ns, Ref.ints us = some ns ∧ f ns = .val v := by
  unfold Ref.onInts at h
  split at h
  · exact ⟨_, by assumption, h⟩
  · cases h

/-- The call of the builtin works. -/
def NumCalls (F : FArith) (h : Heap) (name : String) (args : List Obj) (v : Ref.Val) : Prop := ∃ m, numMem F name args = some m ∧ NumOk h m v

theorem numCalls {F : FArith} {h : Heap} {name : String} {args : List Obj} {m : M Obj} {v : Ref.Val} (hm : numMem F name args = some m) (w : NumOk h m v) : NumCalls F h name args v := ⟨m, hm, w⟩

end Mem

/-- **C150** If the semantics of Scheme gives the call of a numeric builtin the value `v`, the C function on objects that hold the data returns an object that holds `v`; and everything that
held a datum before holds it afterwards. -/
theorem c150_value_partial {h : Heap} (F : FArith) {name : String} (hn : name ∈ numBuiltins) {args : List Obj} {us : List Ref.Val} (ha : HoldAll h args us) {v : Ref.Val}
    (hv : Ref.stdAp name us = .val v) : ∃ m r h', numMem F name args = some m ∧ m h = (.ok r, h') ∧ Holds h' r.v v ∧ ∀ w u, Holds h w u → Holds h' w u := by
  suffices hc : NumCalls F h name args v by
    obtain ⟨m, e1, r, h', e2, e3, e4⟩ := hc
    exact ⟨m, r, h', e1, e2, e3, fun w u hw => hw.keep e4⟩
  simp only [numBuiltins, List.mem_cons, List.not_mem_nil, or_false] at hn
  rcases hn with rfl | rfl | rfl | rfl | rfl | rfl | rfl | rfl | rfl | rfl | rfl | rfl | rfl | rfl | rfl | rfl | rfl | rfl | rfl | rfl | rfl
  · -- +
    replace hv : Ref.onInts (Ref.running (· + ·) 0) us = .val v := hv
    obtain ⟨ns, hn, hv⟩ := onInts_val hv
    obtain ⟨ea, ew⟩ := args_of ha hn
    rw [Ref.running_val hv]
    refine numCalls rfl (num_ok ?_ (running_word (by decide) hv))
    rw [ea]
    exact fold_run (fun a b hw => by simp [scmAdd, needsFloat, NumV.isFloat, binInt, Ref.i64_word hw]) hv
  · -- *
    replace hv : Ref.onInts (Ref.running (· * ·) 1) us = .val v := hv
    obtain ⟨ns, hn, hv⟩ := onInts_val hv
    obtain ⟨ea, ew⟩ := args_of ha hn
    rw [Ref.running_val hv]
    refine numCalls rfl (num_ok ?_ (running_word (by decide) hv))
    rw [ea]
    exact fold_run (fun a b hw => by simp [scmMul, needsFloat, NumV.isFloat, NumV.isRatio, binInt, Ref.i64_word hw]) hv
  · -- -
    replace hv : Ref.onInts (fun
      | [] => .error
      | [n] => if Ref.Word n ∧ Ref.Word (-n) then .val (.num (-n)) else .unknown
      | n :: ns => if Ref.Word n then Ref.running (· - ·) n ns else .unknown) us = .val v := hv
    obtain ⟨ns, hn, hv⟩ := onInts_val hv
    obtain ⟨ea, ew⟩ := args_of ha hn
    match ns, hv, ea with
    | [], hv, _ => cases hv
    | [n], hv, ea =>
      simp only at hv
      split at hv
      · rename_i hw
        cases hv
        refine numCalls rfl (num_ok ?_ hw.2)
        rw [ea]
        exact (c01_minus F n hw.1 []).2.2.1 (by have := hw.2; unfold Ref.Word at this; omega)
      · cases hv
    | n :: m :: ns, hv, ea =>
      simp only at hv
      split at hv
      · rename_i hw
        rw [Ref.running_val hv]
        refine numCalls rfl (num_ok ?_ (running_word hw hv))
        rw [ea]
        exact Ref.minus_run (F := F) hv
      · cases hv
  · -- =
    replace hv : Ref.onInts (fun ns => .val (.bool (Ref.chain (fun a b => decide (a = b)) ns))) us = .val v := hv
    obtain ⟨ns, hn, hv⟩ := onInts_val hv
    obtain ⟨ea, ew⟩ := args_of ha hn
    cases hv
    refine numCalls rfl (bool_ok ?_)
    rw [ea]
    exact Ref.chain_loop (fun a b => by simp [cmpNumber, needsFloat, NumV.isFloat, binInt]) ns
  · -- <
    replace hv : Ref.onInts (fun ns => .val (.bool (Ref.chain (fun a b => decide (a < b)) ns))) us = .val v := hv
    obtain ⟨ns, hn, hv⟩ := onInts_val hv
    obtain ⟨ea, ew⟩ := args_of ha hn
    cases hv
    refine numCalls rfl (bool_ok ?_)
    rw [ea]
    exact Ref.chain_loop (fun a b => by simp [cmpNumber, needsFloat, NumV.isFloat, binInt]) ns
  · -- >
    replace hv : Ref.onInts (fun ns => .val (.bool (Ref.chain (fun a b => decide (a > b)) ns))) us = .val v := hv
    obtain ⟨ns, hn, hv⟩ := onInts_val hv
    obtain ⟨ea, ew⟩ := args_of ha hn
    cases hv
    refine numCalls rfl (bool_ok ?_)
    rw [ea]
    exact Ref.chain_loop (fun a b => by simp [cmpNumber, needsFloat, NumV.isFloat, binInt]) ns
  · -- <=
    replace hv : Ref.onInts (fun ns => .val (.bool (Ref.chain (fun a b => decide (a ≤ b)) ns))) us = .val v := hv
    obtain ⟨ns, hn, hv⟩ := onInts_val hv
    obtain ⟨ea, ew⟩ := args_of ha hn
    cases hv
    refine numCalls rfl (bool_ok ?_)
    rw [ea]
    exact Ref.chain_loop (fun a b => by simp [cmpNumber, needsFloat, NumV.isFloat, binInt]) ns
  · -- >=
    replace hv : Ref.onInts (fun ns => .val (.bool (Ref.chain (fun a b => decide (a ≥ b)) ns))) us = .val v := hv
    obtain ⟨ns, hn, hv⟩ := onInts_val hv
    obtain ⟨ea, ew⟩ := args_of ha hn
    cases hv
    refine numCalls rfl (bool_ok ?_)
    rw [ea]
    exact Ref.chain_loop (fun a b => by simp [cmpNumber, needsFloat, NumV.isFloat, binInt]) ns
  · -- zero?
    replace hv := unary_val hv
    obtain ⟨u, rfl, hv⟩ := hv
    obtain ⟨o, rfl, ho⟩ := hold1 ha
    cases u with
    | num n =>
      obtain ⟨e, hw⟩ := ints_one rfl ho
      cases hv
      exact numCalls rfl (bool_ok (by rw [e]; exact (c09_sign F n).1))
    | _ => cases hv
  · -- positive?
    replace hv := unary_val hv
    obtain ⟨u, rfl, hv⟩ := hv
    obtain ⟨o, rfl, ho⟩ := hold1 ha
    cases u with
    | num n =>
      obtain ⟨e, hw⟩ := ints_one rfl ho
      cases hv
      exact numCalls rfl (bool_ok (by rw [e]; exact (c09_sign F n).2.1))
    | _ => cases hv
  · -- negative?
    replace hv := unary_val hv
    obtain ⟨u, rfl, hv⟩ := hv
    obtain ⟨o, rfl, ho⟩ := hold1 ha
    cases u with
    | num n =>
      obtain ⟨e, hw⟩ := ints_one rfl ho
      cases hv
      exact numCalls rfl (bool_ok (by rw [e]; exact (c09_sign F n).2.2))
    | _ => cases hv
  · -- even?
    rw [ap_even] at hv
    replace hv := unary_val hv
    obtain ⟨u, rfl, hv⟩ := hv
    obtain ⟨o, rfl, ho⟩ := hold1 ha
    cases u with
    | num n =>
      obtain ⟨e, hw⟩ := ints_one rfl ho
      simp only at hv
      split at hv
      · rename_i hb
        cases hv
        exact numCalls rfl (bool_ok (by rw [e]; exact (c06_parity_partial F n hb).1))
      · cases hv
    | _ => cases hv
  · -- odd?
    rw [ap_odd] at hv
    replace hv := unary_val hv
    obtain ⟨u, rfl, hv⟩ := hv
    obtain ⟨o, rfl, ho⟩ := hold1 ha
    cases u with
    | num n =>
      obtain ⟨e, hw⟩ := ints_one rfl ho
      simp only at hv
      split at hv
      · rename_i hb
        cases hv
        refine numCalls rfl (bool_ok ?_)
        rw [e, (c06_parity_partial F n hb).2]
        have : (n % 2 ≠ 0) ↔ n % 2 = 1 := by omega
        simp [this]
      · cases hv
    | _ => cases hv
  · -- quotient
    replace hv : Ref.binary (Ref.division Int.tdiv) us = .val v := hv
    replace hv := binary_val hv
    obtain ⟨u, w, rfl, hv⟩ := hv
    obtain ⟨o, p, rfl, ho, hp⟩ := hold2 ha
    cases u with
    | num a =>
      cases w with
      | num b =>
        simp only [Ref.division] at hv
        split at hv
        · cases hv
        · rename_i hb
          split at hv
          · rename_i hw
            cases hv
            exact numCalls rfl (num_ok (by rw [(ints_one rfl ho).1, (ints_one rfl hp).1]; exact (divisions hb hw.1 hw.2.1 hw.2.2).1) hw.2.2)
          · cases hv
      | _ => cases hv
    | _ => cases hv
  · -- remainder
    replace hv : Ref.binary (Ref.division Int.tmod) us = .val v := hv
    replace hv := binary_val hv
    obtain ⟨u, w, rfl, hv⟩ := hv
    obtain ⟨o, p, rfl, ho, hp⟩ := hold2 ha
    cases u with
    | num a =>
      cases w with
      | num b =>
        simp only [Ref.division] at hv
        split at hv
        · cases hv
        · rename_i hb
          split at hv
          · rename_i hw
            cases hv
            exact numCalls rfl (num_ok (by rw [(ints_one rfl ho).1, (ints_one rfl hp).1]; exact (divisions hb hw.1 hw.2.1 hw.2.2).2.1.1) (divisions hb hw.1 hw.2.1 hw.2.2).2.1.2)
          · cases hv
      | _ => cases hv
    | _ => cases hv
  · -- modulo
    replace hv : Ref.binary (Ref.division Int.fmod) us = .val v := hv
    replace hv := binary_val hv
    obtain ⟨u, w, rfl, hv⟩ := hv
    obtain ⟨o, p, rfl, ho, hp⟩ := hold2 ha
    cases u with
    | num a =>
      cases w with
      | num b =>
        simp only [Ref.division] at hv
        split at hv
        · cases hv
        · rename_i hb
          split at hv
          · rename_i hw
            cases hv
            exact numCalls rfl (num_ok (by rw [(ints_one rfl ho).1, (ints_one rfl hp).1]; exact (divisions hb hw.1 hw.2.1 hw.2.2).2.2.1) (divisions hb hw.1 hw.2.1 hw.2.2).2.2.2)
          · cases hv
      | _ => cases hv
    | _ => cases hv
  · -- abs
    rw [ap_abs] at hv
    replace hv := unary_val hv
    obtain ⟨u, rfl, hv⟩ := hv
    obtain ⟨o, rfl, ho⟩ := hold1 ha
    cases u with
    | num n =>
      obtain ⟨e, hw⟩ := ints_one rfl ho
      simp only at hv
      split at hv
      · rename_i hb
        cases hv
        refine numCalls rfl (num_ok (by rw [e]; exact (c09_abs n hb.1).1 (by have := hb.2; unfold Ref.Word at this; omega)) ?_)
        have h1 := hb.1
        have h2 := hb.2
        unfold Ref.Word at h1 h2 ⊢
        omega
      · cases hv
    | _ => cases hv
  · -- max
    replace hv : Ref.onInts (Ref.extreme fun a b => if a ≤ b then b else a) us = .val v := hv
    obtain ⟨ns, hn, hv⟩ := onInts_val hv
    obtain ⟨ea, ew⟩ := args_of ha hn
    cases ns with
    | nil => cases hv
    | cons n ns =>
      simp only [Ref.extreme] at hv
      split at hv
      · rename_i hb
        cases hv
        obtain ⟨r, h1, h2, h3⟩ := c07_max_min_partial F true n ns hb
        have hm := Ref.fold_max n ns
        have a := h3 _ hm.1
        have b := hm.2 r h2
        simp only [if_true] at a
        have hr : ns.foldl (fun a b => if a ≤ b then b else a) n = r := Int.le_antisymm a b
        rw [hr]
        exact numCalls rfl (num_ok (by rw [ea]; exact h1) (ew r h2))
      · cases hv
  · -- min
    replace hv : Ref.onInts (Ref.extreme fun a b => if a ≤ b then a else b) us = .val v := hv
    obtain ⟨ns, hn, hv⟩ := onInts_val hv
    obtain ⟨ea, ew⟩ := args_of ha hn
    cases ns with
    | nil => cases hv
    | cons n ns =>
      simp only [Ref.extreme] at hv
      split at hv
      · rename_i hb
        cases hv
        obtain ⟨r, h1, h2, h3⟩ := c07_max_min_partial F false n ns hb
        have hm := Ref.fold_min n ns
        have a := h3 _ hm.1
        have b := hm.2 r h2
        simp only [Bool.false_eq_true, if_false] at a
        have hr : ns.foldl (fun a b => if a ≤ b then a else b) n = r := Int.le_antisymm b a
        rw [hr]
        exact numCalls rfl (num_ok (by rw [ea]; exact h1) (ew r h2))
      · cases hv
  · -- gcd
    replace hv : Ref.onInts (fun ns => if ∀ n ∈ ns, Ref.Word n ∧ Ref.Word (-n) then .val (.num (ns.foldl (fun g n => Nat.gcd g n.natAbs) 0 : Nat)) else .unknown) us = .val v := hv
    obtain ⟨ns, hn, hv⟩ := onInts_val hv
    obtain ⟨ea, ew⟩ := args_of ha hn
    split at hv
    · rename_i hb
      cases hv
      have hbound := gcd_bound (B := 2 ^ 63) ns 0 (by decide) fun n hn => by
        have := hb n hn
        unfold Ref.Word at this
        omega
      refine numCalls rfl (num_ok ?_ (by unfold Ref.Word; omega))
      rw [ea]
      cases ns with
      | nil => rfl
      | cons n ns =>
        have hx := Ref.word_min (hb n (.head _))
        have := gcdArgs_ok n.natAbs ns (natAbs_inI64 hx.1 hx.2).1 fun y hy => Ref.word_min (hb y (.tail _ hy))
        simp only [List.map_cons, gcdP, abs64_ok hx.1 hx.2, Res.bind_ok, this, List.foldl_cons, Nat.gcd_zero_left]
    · cases hv
  · -- lcm
    replace hv : Ref.onInts (fun ns => if ∀ n ∈ ns, Ref.Word n ∧ Ref.Word (-n) then Ref.multiples 1 ns else .unknown) us = .val v := hv
    obtain ⟨ns, hn, hv⟩ := onInts_val hv
    obtain ⟨ea, ew⟩ := args_of ha hn
    split at hv
    · rename_i hb
      obtain ⟨rfl, hp⟩ := Ref.multiples_ok ns 1 v (by decide) hv
      have hl := hp ns.length (Nat.le_refl _)
      rw [List.take_length] at hl
      refine numCalls rfl (num_ok ?_ hl)
      rw [ea]
      cases ns with
      | nil => rfl
      | cons n ns =>
        have hx := Ref.word_min (hb n (.head _))
        have := lcmArgs_ok n.natAbs ns (fun y hy => Ref.word_min (hb y (.tail _ hy))) (by
          intro k hk
          have := hp (k + 1) (by simpa using hk)
          simpa using this)
        simp only [List.map_cons, lcmP, abs64_ok hx.1 hx.2, Res.bind_ok, this, List.foldl_cons, Nat.lcm_one_left]
    · cases hv

/-! ## Errors -/

namespace Mem
variable {h : Heap} {F : FArith}

theorem onInts_err {f : List Int → Ref.Ret Ref.Val} {us : List Ref.Val} (h : Ref.onInts f us = .error) : ∃ ns, Ref.ints us = some ns ∧ f ns = .error := by
  unfold Ref.onInts at h
  split at h
  · exact ⟨_, by assumption, h⟩
  · cases h

theorem ints_nil {us : List Ref.Val} (h : Ref.ints us = some []) : us = [] := by
  cases us with
  | nil => rfl
  | cons u us =>
    cases u with
    | num n => simp only [Ref.ints] at h; cases hr : Ref.ints us <;> rw [hr] at h <;> cases h
    | _ => cases h

theorem arityN1 {name : String} {args : List Obj} {us : List Ref.Val} (ha : HoldAll h args us) (h0 : numMem F name [] = none) (h2 : ∀ a b r, numMem F name (a :: b :: r) = none)
    (hne : numMem F name args ≠ none) : us.length = 1 := by
  rw [← ha.length]
  match args, hne with
  | [], hne => exact absurd h0 hne
  | [_], _ => rfl
  | a :: b :: r, hne => exact absurd (h2 a b r) hne

theorem arityN2 {name : String} {args : List Obj} {us : List Ref.Val} (ha : HoldAll h args us) (h0 : numMem F name [] = none) (h1 : ∀ a, numMem F name [a] = none)
    (h3 : ∀ a b c r, numMem F name (a :: b :: c :: r) = none) (hne : numMem F name args ≠ none) : us.length = 2 := by
  rw [← ha.length]
  match args, hne with
  | [], hne => exact absurd h0 hne
  | [a], hne => exact absurd (h1 a) hne
  | [_, _], _ => rfl
  | a :: b :: c :: r, hne => exact absurd (h3 a b c r) hne

end Mem

/-- **C150** If the semantics says that the call (with the right number of arguments) is an error, the C function reports a Scheme error; it does nothing undefined, and the memory is
exactly as before. -/
theorem c150_error_partial {h : Heap} (F : FArith) {name : String} (hn : name ∈ numBuiltins) {args : List Obj} {us : List Ref.Val} (ha : HoldAll h args us)
    (harity : numMem F name args ≠ none) (hv : Ref.stdAp name us = .error) : ∃ m, numMem F name args = some m ∧ ∃ e, m h = (.err e, h) := by
  simp only [numBuiltins, List.mem_cons, List.not_mem_nil, or_false] at hn
  rcases hn with rfl | rfl | rfl | rfl | rfl | rfl | rfl | rfl | rfl | rfl | rfl | rfl | rfl | rfl | rfl | rfl | rfl | rfl | rfl | rfl | rfl
  · -- +
    replace hv : Ref.onInts (Ref.running (· + ·) 0) us = .error := hv
    obtain ⟨ns, hn, hv⟩ := onInts_err hv
    exact absurd hv Ref.running_noErr
  · -- *
    replace hv : Ref.onInts (Ref.running (· * ·) 1) us = .error := hv
    obtain ⟨ns, hn, hv⟩ := onInts_err hv
    exact absurd hv Ref.running_noErr
  · -- -
    replace hv : Ref.onInts (fun
      | [] => .error
      | [n] => if Ref.Word n ∧ Ref.Word (-n) then .val (.num (-n)) else .unknown
      | n :: ns => if Ref.Word n then Ref.running (· - ·) n ns else .unknown) us = .error := hv
    obtain ⟨ns, hn, hv⟩ := onInts_err hv
    match ns, hv, hn with
    | [], hv, hn =>
      obtain rfl := ints_nil hn
      cases ha
      exact ⟨_, rfl, _, rfl⟩
    | [n], hv, _ =>
      simp only at hv
      split at hv <;> cases hv
    | n :: m :: ns, hv, _ =>
      simp only at hv
      split at hv
      · exact absurd hv Ref.running_noErr
      · cases hv
  · -- =
    replace hv : Ref.onInts (fun ns => .val (.bool (Ref.chain (fun a b => decide (a = b)) ns))) us = .error := hv
    obtain ⟨ns, hn, hv⟩ := onInts_err hv
    cases hv
  · -- <
    replace hv : Ref.onInts (fun ns => .val (.bool (Ref.chain (fun a b => decide (a < b)) ns))) us = .error := hv
    obtain ⟨ns, hn, hv⟩ := onInts_err hv
    cases hv
  · -- >
    replace hv : Ref.onInts (fun ns => .val (.bool (Ref.chain (fun a b => decide (a > b)) ns))) us = .error := hv
    obtain ⟨ns, hn, hv⟩ := onInts_err hv
    cases hv
  · -- <=
    replace hv : Ref.onInts (fun ns => .val (.bool (Ref.chain (fun a b => decide (a ≤ b)) ns))) us = .error := hv
    obtain ⟨ns, hn, hv⟩ := onInts_err hv
    cases hv
  · -- >=
    replace hv : Ref.onInts (fun ns => .val (.bool (Ref.chain (fun a b => decide (a ≥ b)) ns))) us = .error := hv
    obtain ⟨ns, hn, hv⟩ := onInts_err hv
    cases hv
  · -- zero?
    have hl := arityN1 ha rfl (fun _ _ _ => rfl) harity
    replace hv := unary_err hl hv
    obtain ⟨u, rfl, hv⟩ := hv
    obtain ⟨o, rfl, ho⟩ := hold1 ha
    have e := not_int ho fun n hn => by
      subst hn
      cases hv
    exact ⟨_, rfl, _, show charAnswer (isZeroP F o.v.toNumV) h = (.err .evalError, h) by rw [e]; rfl⟩
  · -- positive?
    have hl := arityN1 ha rfl (fun _ _ _ => rfl) harity
    replace hv := unary_err hl hv
    obtain ⟨u, rfl, hv⟩ := hv
    obtain ⟨o, rfl, ho⟩ := hold1 ha
    have e := not_int ho fun n hn => by
      subst hn
      cases hv
    exact ⟨_, rfl, _, show charAnswer (isPositiveP F o.v.toNumV) h = (.err .evalError, h) by rw [e]; rfl⟩
  · -- negative?
    have hl := arityN1 ha rfl (fun _ _ _ => rfl) harity
    replace hv := unary_err hl hv
    obtain ⟨u, rfl, hv⟩ := hv
    obtain ⟨o, rfl, ho⟩ := hold1 ha
    have e := not_int ho fun n hn => by
      subst hn
      cases hv
    exact ⟨_, rfl, _, show charAnswer (isNegativeP F o.v.toNumV) h = (.err .evalError, h) by rw [e]; rfl⟩
  · -- even?
    rw [ap_even] at hv
    have hl := arityN1 ha rfl (fun _ _ _ => rfl) harity
    replace hv := unary_err hl hv
    obtain ⟨u, rfl, hv⟩ := hv
    obtain ⟨o, rfl, ho⟩ := hold1 ha
    have e := not_int ho fun n hn => by
      subst hn
      simp only at hv; split at hv <;> cases hv
    exact ⟨_, rfl, _, show charAnswer (isEvenP F o.v.toNumV) h = (.err .evalError, h) by rw [e]; rfl⟩
  · -- odd?
    rw [ap_odd] at hv
    have hl := arityN1 ha rfl (fun _ _ _ => rfl) harity
    replace hv := unary_err hl hv
    obtain ⟨u, rfl, hv⟩ := hv
    obtain ⟨o, rfl, ho⟩ := hold1 ha
    have e := not_int ho fun n hn => by
      subst hn
      simp only at hv; split at hv <;> cases hv
    exact ⟨_, rfl, _, show charAnswer (isOddP F o.v.toNumV) h = (.err .evalError, h) by rw [e]; rfl⟩
  · -- quotient
    have hl := arityN2 ha rfl (fun _ => rfl) (fun _ _ _ _ => rfl) harity
    replace hv : Ref.binary (Ref.division Int.tdiv) us = .error := hv
    replace hv := binary_err hl hv
    obtain ⟨u, w, rfl, hv⟩ := hv
    obtain ⟨o, p, rfl, ho, hp⟩ := hold2 ha
    refine ⟨_, rfl, .evalError, ?_⟩
    show numAnswer (quotientP o.v.toNumV p.v.toNumV) h = _
    by_cases hu : ∃ n, u = .num n
    · obtain ⟨a, rfl⟩ := hu
      rw [(ints_one rfl ho).1]
      by_cases hw : ∃ n, w = .num n
      · obtain ⟨b, rfl⟩ := hw
        rw [(ints_one rfl hp).1]
        simp only [Ref.division] at hv
        split at hv
        · rename_i hb
          subst hb
          rw [(c02_edges a).1]
          rfl
        · split at hv <;> cases hv
      · rw [not_int hp fun n hn => hw ⟨n, hn⟩]
        rfl
    · rw [not_int ho fun n hn => hu ⟨n, hn⟩]
      rfl
  · -- remainder
    have hl := arityN2 ha rfl (fun _ => rfl) (fun _ _ _ _ => rfl) harity
    replace hv : Ref.binary (Ref.division Int.tmod) us = .error := hv
    replace hv := binary_err hl hv
    obtain ⟨u, w, rfl, hv⟩ := hv
    obtain ⟨o, p, rfl, ho, hp⟩ := hold2 ha
    refine ⟨_, rfl, .evalError, ?_⟩
    show numAnswer (remainderP o.v.toNumV p.v.toNumV) h = _
    by_cases hu : ∃ n, u = .num n
    · obtain ⟨a, rfl⟩ := hu
      rw [(ints_one rfl ho).1]
      by_cases hw : ∃ n, w = .num n
      · obtain ⟨b, rfl⟩ := hw
        rw [(ints_one rfl hp).1]
        simp only [Ref.division] at hv
        split at hv
        · rename_i hb
          subst hb
          rw [(c02_edges a).2.1]
          rfl
        · split at hv <;> cases hv
      · rw [not_int hp fun n hn => hw ⟨n, hn⟩]
        rfl
    · rw [not_int ho fun n hn => hu ⟨n, hn⟩]
      rfl
  · -- modulo
    have hl := arityN2 ha rfl (fun _ => rfl) (fun _ _ _ _ => rfl) harity
    replace hv : Ref.binary (Ref.division Int.fmod) us = .error := hv
    replace hv := binary_err hl hv
    obtain ⟨u, w, rfl, hv⟩ := hv
    obtain ⟨o, p, rfl, ho, hp⟩ := hold2 ha
    refine ⟨_, rfl, .evalError, ?_⟩
    show numAnswer (moduloP o.v.toNumV p.v.toNumV) h = _
    by_cases hu : ∃ n, u = .num n
    · obtain ⟨a, rfl⟩ := hu
      rw [(ints_one rfl ho).1]
      by_cases hw : ∃ n, w = .num n
      · obtain ⟨b, rfl⟩ := hw
        rw [(ints_one rfl hp).1]
        simp only [Ref.division] at hv
        split at hv
        · rename_i hb
          subst hb
          rw [(c02_edges a).2.2.1]
          rfl
        · split at hv <;> cases hv
      · rw [not_int hp fun n hn => hw ⟨n, hn⟩]
        rfl
    · rw [not_int ho fun n hn => hu ⟨n, hn⟩]
      rfl
  · -- abs
    rw [ap_abs] at hv
    have hl := arityN1 ha rfl (fun _ _ _ => rfl) harity
    replace hv := unary_err hl hv
    obtain ⟨u, rfl, hv⟩ := hv
    obtain ⟨o, rfl, ho⟩ := hold1 ha
    cases u with
    | num n =>
      simp only at hv
      split at hv <;> cases hv
    | _ => cases hv
  · -- max
    replace hv : Ref.onInts (Ref.extreme fun a b => if a ≤ b then b else a) us = .error := hv
    obtain ⟨ns, hn, hv⟩ := onInts_err hv
    cases ns with
    | nil =>
      obtain rfl := ints_nil hn
      cases ha
      exact ⟨_, rfl, _, rfl⟩
    | cons n ns =>
      simp only [Ref.extreme] at hv
      split at hv <;> cases hv
  · -- min
    replace hv : Ref.onInts (Ref.extreme fun a b => if a ≤ b then a else b) us = .error := hv
    obtain ⟨ns, hn, hv⟩ := onInts_err hv
    cases ns with
    | nil =>
      obtain rfl := ints_nil hn
      cases ha
      exact ⟨_, rfl, _, rfl⟩
    | cons n ns =>
      simp only [Ref.extreme] at hv
      split at hv <;> cases hv
  · -- gcd
    replace hv : Ref.onInts (fun ns => if ∀ n ∈ ns, Ref.Word n ∧ Ref.Word (-n) then .val (.num (ns.foldl (fun g n => Nat.gcd g n.natAbs) 0 : Nat)) else .unknown) us = .error := hv
    obtain ⟨ns, hn, hv⟩ := onInts_err hv
    split at hv <;> cases hv
  · -- lcm
    replace hv : Ref.onInts (fun ns => if ∀ n ∈ ns, Ref.Word n ∧ Ref.Word (-n) then Ref.multiples 1 ns else .unknown) us = .error := hv
    obtain ⟨ns, hn, hv⟩ := onInts_err hv
    split at hv
    · exact absurd hv (Ref.multiples_noErr _ _)
    · cases hv

/-! ## Programs -/

namespace Mem
variable {F : FArith} {T : FText} {fuel : Nat}

theorem memCall_num {name : String} (hn : name ∈ numBuiltins) (args : List Obj) : memCall F fuel name args = none ∧ textMem T fuel name args = none := by
  simp only [numBuiltins, List.mem_cons, List.not_mem_nil, or_false] at hn
  rcases hn with rfl | rfl | rfl | rfl | rfl | rfl | rfl | rfl | rfl | rfl | rfl | rfl | rfl | rfl | rfl | rfl | rfl | rfl | rfl | rfl | rfl <;>
    rcases args with _ | ⟨a, _ | ⟨b, _ | ⟨c, _ | ⟨d, r⟩⟩⟩⟩ <;> exact ⟨rfl, rfl⟩

/-- The builtins of the reference semantics are those of the three lists. -/
theorem std_split {name : String} (hn : name ∈ Ref.stdNames) : name ∈ listBuiltins ∨ name ∈ textBuiltins ∨ name ∈ numBuiltins := by
  have : Ref.stdNames.all (fun x => decide (x ∈ listBuiltins ∨ x ∈ textBuiltins ∨ x ∈ numBuiltins)) = true := by decide +kernel
  exact of_decide_eq_true (List.all_eq_true.1 this name hn)

/-- One call. -/
theorem std_call {h : Heap} (F : FArith) (T : FText) {name : String} (hn : name ∈ Ref.stdNames) {args : List Obj} {us : List Ref.Val} (ha : HoldAll h args us) {v : Ref.Val}
    (hv : Ref.stdAp name us = .val v) :
    ∃ fuel m r h', stdMem F T fuel name args = some m ∧ m h = (.ok r, h') ∧ Holds h' r.v v ∧ ∀ w u, Holds h w u → Holds h' w u := by
  rcases std_split hn with hl | hl | hl
  · obtain ⟨N, hN⟩ := c148_value_partial F hl ha hv
    obtain ⟨m, r, h1, e1, e2, hr, hk⟩ := hN N (Nat.le_refl N)
    exact ⟨N, m, r, h1, by simp [stdMem, dataMem, e1], e2, hr, hk⟩
  · obtain ⟨N, hN⟩ := c149_value_partial T hl ha hv
    obtain ⟨m, r, h1, e1, e2, hr, hk⟩ := hN N (Nat.le_refl N)
    exact ⟨N, m, r, h1, by simp [stdMem, dataMem, memCall_list hl, e1], e2, hr, hk⟩
  · obtain ⟨m, r, h1, e1, e2, hr, hk⟩ := c150_value_partial F hl ha hv
    exact ⟨0, m, r, h1, by simp [stdMem, dataMem, (memCall_num (T := T) hl args).1, (memCall_num (F := F) (T := T) (fuel := 0) hl args).2, e1], e2, hr, hk⟩

end Mem

/-- **C150** A program of calls of any builtins of the reference semantics: if the semantics gives it results, the C functions called one after the other give objects that hold them, and
everything that held a datum before holds it afterwards. -/
theorem c150_program_partial (F : FArith) (T : FText) : ∀ {ls : Lines} {h : Heap} {os : List Obj} {us vs : List Ref.Val}, (∀ l ∈ ls, l.1 ∈ Ref.stdNames) →
    HoldAll h os us → meaning ls us = .val vs → ∃ os' h', LinesRun (stdMem F T) ls os h os' h' ∧ HoldAll h' os' vs ∧ ∀ w u, Holds h w u → Holds h' w u := by
  intro ls
  induction ls with
  | nil =>
    intro h os us vs _ ho hm
    cases hm
    exact ⟨os, h, .done, ho, fun _ _ hw => hw⟩
  | cons l ls ih =>
    intro h os us vs hls ho hm
    obtain ⟨f, is⟩ := l
    simp only [meaning] at hm
    cases hp : picks us is with
    | none => simp [hp] at hm
    | some ws =>
      simp only [hp] at hm
      obtain ⟨as, ha1, ha2⟩ := Mem.picks_hold ho hp
      cases hf : Ref.stdAp f ws with
      | error => simp [hf] at hm
      | unknown => simp [hf] at hm
      | val v =>
        simp only [hf] at hm
        obtain ⟨fuel, m, r, h1, e1, e2, hr, hk⟩ := std_call F T (hls (f, is) (List.mem_cons_self ..)) ha2 hf
        have hos : HoldAll h1 os us := by
          clear hm hp ha1 ha2 ih hls
          induction ho with
          | nil => exact .nil
          | cons hx _ ih => exact .cons (hk _ _ hx) ih
        obtain ⟨os', h', hrun, hh, hk'⟩ := ih (fun l hl => hls l (by simp [hl])) (hos.append (.cons hr .nil)) hm
        exact ⟨os', h', .line ha1 e1 e2 hrun, hh, fun w u hw => hk' w u (hk w u hw)⟩

/-! ## Cases -/

/-- `(number->string (+ (string-length s) (* n (length l))))` and more, with the data `"a"`, `7` and `(1 "a")` of `demoHeap`. -/
example : meaning [("string-length", [0]), ("length", [2]), ("*", [1, 4]), ("+", [3, 5]), ("number->string", [6]), ("modulo", [6, 1]), ("<", [8, 1, 6]), ("lcm", [1, 4]), ("max", [1, 8, 10])]
    [.str "a", .num 7, .pair (.num 1) (.pair (.str "a") .nil)] = .val
    [.str "a", .num 7, .pair (.num 1) (.pair (.str "a") .nil), .num 1, .num 2, .num 14, .num 15, .str "15", .num 1, .bool true, .num 14, .num 14] := by
  with_unfolding_all rfl

example : HoldAll Mem.demoHeap [⟨10, .str 0⟩, ⟨11, .num 7⟩, ⟨12, .list 0⟩] [.str "a", .num 7, .pair (.num 1) (.pair (.str "a") .nil)] :=
  .cons (.str 0 [97] rfl (by decide)) (.cons (.num 7 (by decide))
    (.cons (.next (n := ⟨⟨0, .num 1⟩, some 1, false⟩) rfl rfl rfl (.num 1 (by decide)) (.last (n := ⟨⟨1, .str 0⟩, none, false⟩) rfl rfl rfl (.str 0 [97] rfl (by decide)))) .nil))

/-- `(quotient 7 0)`, `(zero? "a")`, `(max)`. -/
example : Ref.stdAp "quotient" [.num 7, .num 0] = .error ∧ Ref.stdAp "zero?" [.str "a"] = .error ∧ Ref.stdAp "max" [] = .error := ⟨rfl, rfl, rfl⟩

end Pscm
