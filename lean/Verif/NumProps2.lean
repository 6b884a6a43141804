import Verif.NumProps
/-!
# C05, C07, continued: inexact and mixed arguments

The IEEE comparison `Dbl.lt` is a strict order; `max` and `min` of mixed arguments are extremal with respect to it.
-/
namespace Pscm

theorem scaled_shift (n : Bool) (m : Nat) (e b k : Int) (hb : b ≤ e) (hk : k ≤ b) :
    Dbl.scaled n m e k = Dbl.scaled n m e b * 2 ^ (b - k).toNat := by
  unfold Dbl.scaled
  rw [Int.mul_assoc, Int.mul_assoc, Int.mul_assoc, ← Int.pow_add]
  congr 3
  omega

/-- Specification: `a < b` as extended real numbers (no order for NaN): finite values are compared in any common unit `2^k`. -/
def Spec.dlt : Dbl → Dbl → Prop
  | .fin n1 m1 e1, .fin n2 m2 e2 =>
    ∃ k : Int, k ≤ e1 ∧ k ≤ e2 ∧ (if n1 then -1 else 1) * (m1 : Int) * 2 ^ (e1 - k).toNat < (if n2 then -1 else 1) * (m2 : Int) * 2 ^ (e2 - k).toNat
  | .inf true, .fin .. => True
  | .inf true, .inf false => True
  | .fin .., .inf false => True
  | _, _ => False

theorem lt_any (n1 : Bool) (m1 : Nat) (e1 : Int) (n2 : Bool) (m2 : Nat) (e2 k : Int) (h1 : k ≤ e1) (h2 : k ≤ e2) :
    Dbl.lt (.fin n1 m1 e1) (.fin n2 m2 e2) = true ↔ Dbl.scaled n1 m1 e1 k < Dbl.scaled n2 m2 e2 k := by
  have hp : (0:Int) < 2 ^ (min e1 e2 - k).toNat := Int.pow_pos (by decide)
  rw [scaled_shift n1 m1 e1 (min e1 e2) k (by omega) (by omega), scaled_shift n2 m2 e2 (min e1 e2) k (by omega) (by omega)]
  simp only [Dbl.lt, decide_eq_true_eq]
  constructor
  · intro h; exact Int.mul_lt_mul_of_pos_right h hp
  · intro h; exact Int.lt_of_mul_lt_mul_right h (Int.le_of_lt hp)

/-- The model's `<` on doubles is the order of the numbers they stand for. -/
theorem dlt_iff (a b : Dbl) : Dbl.lt a b = true ↔ Spec.dlt a b := by
  cases a with
  | nan => cases b <;> simp [Dbl.lt, Spec.dlt]
  | inf s =>
    cases b with
    | nan => cases s <;> simp [Dbl.lt, Spec.dlt]
    | inf t => cases s <;> cases t <;> simp [Dbl.lt, Spec.dlt]
    | fin n m e => cases s <;> simp [Dbl.lt, Spec.dlt]
  | fin n m e =>
    cases b with
    | nan => simp [Dbl.lt, Spec.dlt]
    | inf t => cases t <;> simp [Dbl.lt, Spec.dlt]
    | fin n2 m2 e2 =>
      simp only [Spec.dlt]
      constructor
      · intro h
        exact ⟨min e e2, by omega, by omega, (lt_any n m e n2 m2 e2 (min e e2) (by omega) (by omega)).1 h⟩
      · rintro ⟨k, h1, h2, h3⟩
        exact (lt_any n m e n2 m2 e2 k h1 h2).2 h3

theorem dlt_irrefl (a : Dbl) : Dbl.lt a a = false := by
  cases a with
  | nan => rfl
  | inf s => cases s <;> rfl
  | fin n m e => simp [Dbl.lt]

theorem dlt_trans {a b c : Dbl} (h1 : Dbl.lt a b = true) (h2 : Dbl.lt b c = true) : Dbl.lt a c = true := by
  cases a with
  | nan => cases b <;> simp [Dbl.lt] at h1
  | inf s =>
    cases b with
    | nan => simp [Dbl.lt] at h1
    | inf t => cases s <;> cases t <;> cases c <;> simp_all [Dbl.lt]
    | fin n m e =>
      cases s with
      | false => simp [Dbl.lt] at h1
      | true => cases c <;> simp_all [Dbl.lt]
  | fin n m e =>
    cases b with
    | nan => simp [Dbl.lt] at h1
    | inf t => cases t <;> cases c <;> simp_all [Dbl.lt]
    | fin n2 m2 e2 =>
      cases c with
      | nan => simp [Dbl.lt] at h2
      | inf t => cases t <;> simp_all [Dbl.lt]
      | fin n3 m3 e3 =>
        have k := min e (min e2 e3)
        rw [lt_any n m e n2 m2 e2 (min e (min e2 e3)) (by omega) (by omega)] at h1
        rw [lt_any n2 m2 e2 n3 m3 e3 (min e (min e2 e3)) (by omega) (by omega)] at h2
        rw [lt_any n m e n3 m3 e3 (min e (min e2 e3)) (by omega) (by omega)]
        omega

section
variable (F : FArith)

/-- Specification: the double a number converts to. -/
def Spec.toDouble : NumV → Option Dbl
  | .flo d => some d
  | .int n => some (Dbl.ofInt n)
  | .ratio n d => some (F.div (Dbl.ofInt n) (Dbl.ofInt d))
  | .other => none

theorem toDouble_eq {a : NumV} {d : Dbl} (h : Spec.toDouble F a = some d) :
    scmToDouble F a = d ∧ (!a.isNum && !a.isFloat && !a.isRatio) = false := by
  cases a <;> simp_all [Spec.toDouble, scmToDouble, NumV.isNum, NumV.isFloat, NumV.isRatio]

/-- `v` beats `d`: is greater for `max`, smaller for `min`. -/
def Spec.beats (isMax : Bool) (v d : Dbl) : Prop := if isMax then Spec.dlt v d else Spec.dlt d v

theorem extremeLoop_mixed (isMax : Bool) (as : List NumV) (ds : List Dbl) (hds : as.map (Spec.toDouble F) = ds.map some)
    (cur : Dbl) (ai : Bool) (seen : List Dbl) (hc : cur ∈ seen) (hs : ∀ y ∈ seen, ¬ Spec.beats isMax cur y) :
    ∃ v, extremeLoop F isMax cur ai as = .ok (v, ai && as.all NumV.isNum) ∧ v ∈ seen ++ ds ∧ ∀ y ∈ seen ++ ds, ¬ Spec.beats isMax v y := by
  induction as generalizing ds cur ai seen with
  | nil =>
    cases ds with
    | nil => exact ⟨cur, by simp [extremeLoop], by simpa using hc, by simpa using hs⟩
    | cons _ _ => simp at hds
  | cons a as ih =>
    cases ds with
    | nil => simp at hds
    | cons d ds =>
      simp only [List.map_cons, List.cons.injEq] at hds
      obtain ⟨e1, e2⟩ := toDouble_eq F hds.1
      simp only [extremeLoop, e2, Bool.false_eq_true, if_false, e1]
      have hai : (if !a.isNum then false else ai) = (ai && a.isNum) := by cases a.isNum <;> cases ai <;> rfl
      rw [hai]
      have hb : (if isMax = true then cur.lt d else d.lt cur) = true ↔ Spec.beats isMax cur d := by
        unfold Spec.beats; cases isMax <;> simp [dlt_iff]
      have hirr : ∀ x, ¬ Spec.beats isMax x x := by
        intro x; unfold Spec.beats; rw [← dlt_iff, dlt_irrefl]; cases isMax <;> simp
      have htr : ∀ y, Spec.beats isMax cur d → Spec.beats isMax d y → Spec.beats isMax cur y := by
        intro y
        unfold Spec.beats
        cases isMax
        · simp only [Bool.false_eq_true, if_false, ← dlt_iff]; exact fun h1 h2 => dlt_trans h2 h1
        · simp only [if_true, ← dlt_iff]; exact dlt_trans
      by_cases hbt : Spec.beats isMax cur d
      · rw [if_pos (hb.2 hbt)]
        obtain ⟨v, h1, h2, h3⟩ := ih ds hds.2 d (ai && a.isNum) (seen ++ [d]) (by simp) (by
          intro y hy
          rcases List.mem_append.1 hy with hy | hy
          · exact fun hh => hs y hy (htr y hbt hh)
          · rw [List.mem_singleton.1 hy]; exact hirr d)
        exact ⟨v, by rw [h1]; simp [Bool.and_assoc], by simpa using h2, by simpa using h3⟩
      · rw [if_neg (fun hh => hbt (hb.1 hh))]
        obtain ⟨v, h1, h2, h3⟩ := ih ds hds.2 cur (ai && a.isNum) (seen ++ [d]) (by simp [hc]) (by
          intro y hy
          rcases List.mem_append.1 hy with hy | hy
          · exact hs y hy
          · rw [List.mem_singleton.1 hy]; exact hbt)
        exact ⟨v, by rw [h1]; simp [Bool.and_assoc], by simpa using h2, by simpa using h3⟩

/-- C07: when some argument is not an exact integer, `max`/`min` return — as an inexact number — the value of an argument that no argument
exceeds (falls below). -/
theorem c07_mixed (isMax : Bool) (as : List NumV) (ds : List Dbl) (hne : as ≠ []) (hds : as.map (Spec.toDouble F) = ds.map some)
    (hmix : ∃ a ∈ as, ∀ n, a ≠ .int n) :
    ∃ v, extremeP F isMax as = .ok (.flo v) ∧ v ∈ ds ∧ ∀ y ∈ ds, ¬ Spec.beats isMax v y := by
  cases as with
  | nil => exact absurd rfl hne
  | cons a as =>
    cases ds with
    | nil => simp at hds
    | cons d ds =>
      simp only [List.map_cons, List.cons.injEq] at hds
      obtain ⟨e1, e2⟩ := toDouble_eq F hds.1
      obtain ⟨v, h1, h2, h3⟩ := extremeLoop_mixed F isMax as ds hds.2 d a.isNum [d] (by simp) (by
        intro y hy; rw [List.mem_singleton.1 hy]
        unfold Spec.beats; rw [← dlt_iff, dlt_irrefl]; cases isMax <;> simp)
      refine ⟨v, ?_, by simpa using h2, by simpa using h3⟩
      have hall : (a.isNum && as.all NumV.isNum) = false := by
        rw [Bool.eq_false_iff]
        intro hh
        simp only [Bool.and_eq_true, List.all_eq_true] at hh
        obtain ⟨b, hb, hbn⟩ := hmix
        have : b.isNum = true := by
          rcases List.mem_cons.1 hb with rfl | hb
          · exact hh.1
          · exact hh.2 b hb
        cases b with
        | int n => exact hbn n rfl
        | _ => simp [NumV.isNum] at this
      simp only [extremeP, e2, Bool.false_eq_true, if_false, e1, h1, hall, Res.bind_ok]
      rfl

/-- C07: an argument that is no number is an error, and so is no argument at all. -/
theorem c07_not_number (isMax : Bool) (pre post : List NumV) (ds : List Dbl) (hds : pre.map (Spec.toDouble F) = ds.map some) :
    extremeP F isMax (pre ++ .other :: post) = .err .evalError ∧ extremeP F isMax [] = .err .evalError := by
  refine ⟨?_, rfl⟩
  have hl : ∀ (as : List NumV) (ds : List Dbl) cur ai, as.map (Spec.toDouble F) = ds.map some →
      extremeLoop F isMax cur ai (as ++ .other :: post) = .err .evalError := by
    intro as
    induction as with
    | nil => intro ds cur ai _; rfl
    | cons a as ih =>
      intro ds cur ai h
      cases ds with
      | nil => simp at h
      | cons d ds =>
        simp only [List.map_cons, List.cons.injEq] at h
        obtain ⟨e1, e2⟩ := toDouble_eq F h.1
        simp only [List.cons_append, extremeLoop, e2, Bool.false_eq_true, if_false]
        exact ih ds _ _ h.2
  cases pre with
  | nil => rfl
  | cons a as =>
    cases ds with
    | nil => simp at hds
    | cons d ds =>
      simp only [List.map_cons, List.cons.injEq] at hds
      obtain ⟨e1, e2⟩ := toDouble_eq F hds.1
      simp only [List.cons_append, extremeP, e2, Bool.false_eq_true, if_false, hl as ds _ _ hds.2]
      rfl

example : ([.int 3, .flo (.fin false 7 (-1))] : List NumV).map (Spec.toDouble exampleF) = [Dbl.ofInt 3, .fin false 7 (-1)].map some ∧
    extremeP exampleF true [.int 3, .flo (.fin false 7 (-1))] = .ok (.flo (.fin false 7 (-1))) ∧
    extremeP exampleF false [.int 3, .flo (.fin false 7 (-1))] = .ok (.flo (Dbl.ofInt 3)) := by decide +kernel

theorem eq_any (n1 : Bool) (m1 : Nat) (e1 : Int) (n2 : Bool) (m2 : Nat) (e2 : Int) :
    Dbl.eq (.fin n1 m1 e1) (.fin n2 m2 e2) = true ↔
      Dbl.lt (.fin n1 m1 e1) (.fin n2 m2 e2) = false ∧ Dbl.lt (.fin n2 m2 e2) (.fin n1 m1 e1) = false := by
  simp only [Dbl.eq, Dbl.lt, beq_iff_eq, decide_eq_false_iff_not, Int.min_comm e2 e1]
  omega

/-- Specification: numerically equal, NaN equal to nothing. -/
def Spec.deq (a b : Dbl) : Prop := a ≠ .nan ∧ b ≠ .nan ∧ ¬ Spec.dlt a b ∧ ¬ Spec.dlt b a

theorem deq_iff (a b : Dbl) : Dbl.eq a b = true ↔ Spec.deq a b := by
  unfold Spec.deq
  rw [← dlt_iff, ← dlt_iff]
  cases a with
  | nan => simp [Dbl.eq]
  | inf s => cases b with
    | nan => simp [Dbl.eq]
    | inf t => cases s <;> cases t <;> simp [Dbl.eq, Dbl.lt]
    | fin n m e => cases s <;> simp [Dbl.eq, Dbl.lt]
  | fin n m e => cases b with
    | nan => simp [Dbl.eq]
    | inf t => cases t <;> simp [Dbl.eq, Dbl.lt]
    | fin n2 m2 e2 => rw [eq_any]; simp

/-- Specification: the relation decided by a comparison operator on inexact numbers. -/
def Spec.drel : CmpOp → Dbl → Dbl → Prop
  | .eq, x, y => Spec.deq x y
  | .lt, x, y => Spec.dlt x y
  | .gt, x, y => Spec.dlt y x
  | .le, x, y => Spec.dlt x y ∨ Spec.deq x y
  | .ge, x, y => Spec.dlt y x ∨ Spec.deq x y

/-- C05, inexact case: a comparison of two numbers one of which is inexact is the order of the doubles they convert to (an integer of more
than 53 bits may be rounded). -/
theorem c05_mixed (op : CmpOp) (a b : NumV) (x y : Dbl) (ha : Spec.toDouble F a = some x) (hb : Spec.toDouble F b = some y)
    (hf : (∃ d, a = .flo d) ∨ (∃ d, b = .flo d)) :
    ∃ r, cmpChain F op [a, b] = .ok r ∧ (r = true ↔ Spec.drel op x y) := by
  have hn : needsFloat a b = true := by
    rcases hf with ⟨d, rfl⟩ | ⟨d, rfl⟩ <;> simp [needsFloat, NumV.isFloat]
  have e1 := (toDouble_eq F ha).1
  have e2 := (toDouble_eq F hb).1
  have hsym : Spec.deq y x ↔ Spec.deq x y := by unfold Spec.deq; constructor <;> (rintro ⟨a, b, c, d⟩; exact ⟨b, a, d, c⟩)
  refine ⟨_, by simp [cmpChain, cmpNumber, hn]; rfl, ?_⟩
  rw [e1, e2]
  cases op with
  | eq => exact deq_iff x y
  | lt => exact dlt_iff x y
  | gt => exact dlt_iff y x
  | le => simp only [Dbl.le, Bool.or_eq_true, Spec.drel, dlt_iff, deq_iff]
  | ge => simp only [Dbl.le, Bool.or_eq_true, Spec.drel, dlt_iff, deq_iff, hsym]

example : cmpChain exampleF .lt [.int 3, .flo (.fin false 7 (-1))] = .ok true := by decide +kernel
end
end Pscm
