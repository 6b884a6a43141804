import Verif.NumLemmas
/-!
# Properties C01–C09 and C85–C87: numbers

Specifications used here (independent of the model): `List.sum`, `Spec.prod`, integer divisibility and order.
-/
namespace Pscm

/-- Product of a list of integers (specification). -/
def Spec.prod : List Int → Int
  | [] => 1
  | x :: xs => x * Spec.prod xs

theorem foldl_mul_eq (init : Int) (xs : List Int) : xs.foldl (· * ·) init = init * Spec.prod xs := by
  induction xs generalizing init with
  | nil => simp [Spec.prod]
  | cons x xs ih => simp [ih, Spec.prod, Int.mul_assoc]

/-- An arbitrary but concrete instance of float arithmetic, used only in examples. -/
def exampleF : FArith := ⟨fun a _ => a, fun a _ => a, fun a _ => a, fun a _ => a, fun a => a, fun a => a⟩

section
variable (F : FArith)

/-! ## C01 — integer `+`, `*`, `-` -/

/-- C01: `(+ x …)` on exact integers is the exact sum if every running sum fits in 64 bits; otherwise the
program has undefined behaviour (and only then). -/
theorem c01_plus (xs : List Int) :
    ((∀ k ≤ xs.length, InI64 (xs.take k).sum) → plus F (xs.map .int) = .ok (.int xs.sum)) ∧
    ((∃ k ≤ xs.length, ¬ InI64 (xs.take k).sum) → plus F (xs.map .int) = .ub) := by
  have hf : ∀ x y, scmAdd F (.int x) (.int y) = (do let r ← i64 (x + y); pure (.int r)) := by
    intro x y; simp [scmAdd, needsFloat, NumV.isFloat, binInt]
  constructor
  · intro h
    have := reduceR_ints (scmAdd F) (· + ·) hf 0 xs (by
      intro k hk; rw [foldl_add_eq, Int.zero_add]; exact h (k+1) (by omega))
    rw [foldl_add_eq, Int.zero_add] at this
    exact this
  · rintro ⟨k, hk, hbad⟩
    cases k with
    | zero => exact absurd (show InI64 0 by decide) hbad
    | succ k =>
      exact reduceR_ints_ub (scmAdd F) (· + ·) hf 0 xs k (by omega) (by rwa [foldl_add_eq, Int.zero_add])

/-- C01: `(* x …)`. -/
theorem c01_times (xs : List Int) :
    ((∀ k ≤ xs.length, InI64 (Spec.prod (xs.take k))) → times F (xs.map .int) = .ok (.int (Spec.prod xs))) ∧
    ((∃ k ≤ xs.length, ¬ InI64 (Spec.prod (xs.take k))) → times F (xs.map .int) = .ub) := by
  have hf : ∀ x y, scmMul F (.int x) (.int y) = (do let r ← i64 (x * y); pure (.int r)) := by
    intro x y; simp [scmMul, needsFloat, NumV.isFloat, NumV.isRatio, binInt]
  constructor
  · intro h
    have := reduceR_ints (scmMul F) (· * ·) hf 1 xs (by
      intro k hk; rw [foldl_mul_eq, Int.one_mul]; exact h (k+1) (by omega))
    rw [foldl_mul_eq, Int.one_mul] at this
    exact this
  · rintro ⟨k, hk, hbad⟩
    cases k with
    | zero => exact absurd (show InI64 1 by decide) hbad
    | succ k =>
      exact reduceR_ints_ub (scmMul F) (· * ·) hf 1 xs k (by omega) (by rwa [foldl_mul_eq, Int.one_mul])

/-- C01: `(- x y …)` with at least two arguments subtracts from the first; one argument negates (undefined
exactly at `-2^63`); no argument is a Scheme error. -/
theorem c01_minus (x : Int) (hx : InI64 x) (ys : List Int) :
    (ys ≠ [] → (∀ k ≤ ys.length, InI64 (x - (ys.take k).sum)) →
        minus F (.int x :: ys.map .int) = .ok (.int (x - ys.sum))) ∧
    (ys ≠ [] → (∃ k ≤ ys.length, ¬ InI64 (x - (ys.take k).sum)) → minus F (.int x :: ys.map .int) = .ub) ∧
    (x ≠ -(2:Int)^63 → minus F [.int x] = .ok (.int (-x))) ∧
    (minus F [.int (-(2:Int)^63)] = .ub) ∧
    (minus F [] = .err .evalError) := by
  have hf : ∀ x y, scmSub F (.int x) (.int y) = (do let r ← i64 (x - y); pure (.int r)) := by
    intro x y; simp [scmSub, needsFloat, NumV.isFloat, binInt]
  refine ⟨?_, ?_, ?_, ?_, rfl⟩
  · intro hne h
    obtain ⟨y, ys', rfl⟩ : ∃ y ys', ys = y :: ys' := by
      cases ys with | nil => exact absurd rfl hne | cons a b => exact ⟨a, b, rfl⟩
    have := reduceR_ints (scmSub F) (· - ·) hf x (y :: ys') (by
      intro k hk; rw [foldl_sub_eq]; exact h (k+1) (by omega))
    rw [foldl_sub_eq] at this
    exact this
  · rintro hne ⟨k, hk, hbad⟩
    obtain ⟨y, ys', rfl⟩ : ∃ y ys', ys = y :: ys' := by
      cases ys with | nil => exact absurd rfl hne | cons a b => exact ⟨a, b, rfl⟩
    cases k with
    | zero => simp at hbad; exact absurd hx hbad
    | succ k =>
      exact reduceR_ints_ub (scmSub F) (· - ·) hf x (y :: ys') k (by omega) (by rwa [foldl_sub_eq])
  · intro hne
    have : InI64 (-x) := by unfold InI64 at *; omega
    simp [minus, NumV.isNum, scmNegate, i64_ok this]
  · simp [minus, NumV.isNum, scmNegate, i64, InI64]

example : (∀ k ≤ [5, -7, 9].length, InI64 (([5, -7, 9] : List Int).take k).sum) ∧
    plus exampleF ([5, -7, 9].map .int) = .ok (.int 7) := by decide
example : (∃ k ≤ [(2:Int)^63 - 1, 1, -5].length, ¬ InI64 (([(2:Int)^63 - 1, 1, -5] : List Int).take k).sum) :=
  ⟨2, by decide, by decide⟩
example : ∀ k ≤ [4, 5].length, InI64 (3 - (([4, 5] : List Int).take k).sum) := by decide

/-! ## C02 — quotient, remainder, modulo -/

/-- C02, main case: `d ≠ 0` and not the one overflowing pair.  The three builtins return `q`, `r`, `m` with the
division law, and `r`/`m` have the sign and size R5RS requires. -/
theorem c02_division (n d : Int) (hn : InI64 n) (hd : InI64 d) (h0 : d ≠ 0)
    (hov : ¬ (n = -(2:Int)^63 ∧ d = -1)) :
    ∃ q r m : Int,
      quotientP (.int n) (.int d) = .ok (.int q) ∧
      remainderP (.int n) (.int d) = .ok (.int r) ∧
      moduloP (.int n) (.int d) = .ok (.int m) ∧
      n = d * q + r ∧ r.natAbs < d.natAbs ∧ (0 ≤ n → 0 ≤ r) ∧ (n ≤ 0 → r ≤ 0) ∧
      (∃ k, n = d * k + m) ∧ (0 < d → 0 ≤ m ∧ m < d) ∧ (d < 0 → d < m ∧ m ≤ 0) := by
  have hq := tdiv_inI64 hn hov
  have hlaw : d * n.tdiv d + n.tmod d = n := Int.mul_tdiv_add_tmod n d
  have hb := tmod_bounds n d h0
  have hsg1 : 0 ≤ n → 0 ≤ n.tmod d := fun h => Int.tmod_nonneg _ h
  have hsg2 : n ≤ 0 → n.tmod d ≤ 0 := fun h => by
    have := Int.tmod_nonneg (a := -n) d (by omega); rw [Int.neg_tmod] at this; omega
  have hp : InI64 (d * n.tdiv d) := by
    have : d * n.tdiv d = n - n.tmod d := by omega
    rw [this]; unfold InI64 at *
    rcases Int.le_total 0 n with h | h
    · have := hsg1 h
      have h3 : n.tmod d ≤ n := by
        have := Int.natAbs_tmod n d
        have := Nat.mod_le n.natAbs d.natAbs
        omega
      omega
    · have := hsg2 h
      have h3 : n ≤ n.tmod d := by
        have := Int.natAbs_tmod n d
        have := Nat.mod_le n.natAbs d.natAbs
        omega
      omega
  have hr : n - d * n.tdiv d = n.tmod d := by omega
  have hri : InI64 (n - d * n.tdiv d) := by rw [hr]; unfold InI64 at *; omega
  refine ⟨n.tdiv d, n.tmod d,
    if n.tmod d > 0 ∧ d < 0 then n.tmod d + d else if n.tmod d < 0 ∧ d > 0 then n.tmod d + d else n.tmod d,
    ?_, ?_, ?_, hlaw.symm, hb, hsg1, hsg2, ?_, ?_, ?_⟩
  · simp [quotientP, h0, div64_ok h0 hq]
  · simp only [remainderP, h0, ↓reduceIte, div64_ok h0 hq, Res.bind_ok, i64_ok hp, i64_ok hri]
    rw [hr]; rfl
  · simp only [moduloP, h0, ↓reduceIte, div64_ok h0 hq, Res.bind_ok, i64_ok hp, i64_ok hri]
    rw [hr]
    split
    · have : InI64 (n.tmod d + d) := by unfold InI64 at *; omega
      simp [i64_ok this]
    · split
      · have : InI64 (n.tmod d + d) := by unfold InI64 at *; omega
        simp [i64_ok this]
      · simp
  · split
    · refine ⟨n.tdiv d - 1, ?_⟩; rw [Int.mul_sub]; omega
    · split
      · refine ⟨n.tdiv d - 1, ?_⟩; rw [Int.mul_sub]; omega
      · exact ⟨n.tdiv d, by omega⟩
  · intro h; split
    · omega
    · split <;> omega
  · intro h; split
    · omega
    · split <;> omega

/-- C02: a zero divisor is a Scheme error in all three; `(-2^63, -1)` is undefined behaviour in all three. -/
theorem c02_edges (n : Int) :
    quotientP (.int n) (.int 0) = .err .evalError ∧
    remainderP (.int n) (.int 0) = .err .evalError ∧
    moduloP (.int n) (.int 0) = .err .evalError ∧
    quotientP (.int (-(2:Int)^63)) (.int (-1)) = .ub ∧
    remainderP (.int (-(2:Int)^63)) (.int (-1)) = .ub ∧
    moduloP (.int (-(2:Int)^63)) (.int (-1)) = .ub := by
  refine ⟨by simp [quotientP], by simp [remainderP], by simp [moduloP], ?_, ?_, ?_⟩ <;> decide

example : InI64 (-7) ∧ InI64 2 ∧ (2:Int) ≠ 0 ∧ ¬ ((-7:Int) = -(2:Int)^63 ∧ (2:Int) = -1) ∧
    moduloP (.int (-7)) (.int 2) = .ok (.int 1) ∧ remainderP (.int (-7)) (.int 2) = .ok (.int (-1)) := by decide

/-! ## C03 — gcd and lcm -/

/-- C03: `(gcd x …)`: the non-negative common divisor that every common divisor divides. -/
theorem c03_gcd (xs : List Int) (h : ∀ x ∈ xs, InI64 x ∧ x ≠ -(2:Int)^63) :
    ∃ g : Int, gcdP (xs.map .int) = .ok (.int g) ∧ 0 ≤ g ∧ (∀ x ∈ xs, g ∣ x) ∧
      (∀ d : Int, (∀ x ∈ xs, d ∣ x) → d ∣ g) := by
  cases xs with
  | nil => exact ⟨0, rfl, by decide, by simp, by intro d _; exact Int.dvd_zero _⟩
  | cons x xs =>
    have hx := h x (by simp)
    have := gcdArgs_ok x.natAbs xs (natAbs_inI64 hx.1 hx.2).1 (fun y hy => h y (by simp [hy]))
    obtain ⟨d1, d2, d3⟩ := foldl_gcd_dvd x.natAbs xs
    refine ⟨((xs.foldl (fun g x => Nat.gcd g x.natAbs) x.natAbs : Nat) : Int), ?_, ?_, ?_, ?_⟩
    · simp only [List.map_cons, gcdP, abs64_ok hx.1 hx.2, Res.bind_ok]; exact this
    · omega
    · intro y hy
      rw [Int.ofNat_dvd_left]
      rcases List.mem_cons.1 hy with rfl | hy
      · exact d1
      · exact d2 y hy
    · intro d hd
      rw [← Int.natAbs_dvd_natAbs, Int.natAbs_natCast]
      apply d3
      · exact Int.natAbs_dvd_natAbs.2 (hd x (by simp))
      · intro y hy; exact Int.natAbs_dvd_natAbs.2 (hd y (by simp [hy]))

/-- C03: with `-2^63` among the arguments `gcd` is undefined behaviour (negation overflows). -/
theorem c03_gcd_ub (xs : List Int) (h : ∀ x ∈ xs, InI64 x) (hm : -(2:Int)^63 ∈ xs) :
    gcdP (xs.map .int) = .ub := by
  cases xs with
  | nil => simp at hm
  | cons x xs =>
    by_cases hx : x = -(2:Int)^63
    · subst hx; simp only [List.map_cons, gcdP, abs64_min]; rfl
    · have hxi := h x (by simp)
      simp only [List.map_cons, gcdP, abs64_ok hxi hx, Res.bind_ok]
      refine gcdArgs_ub _ _ (natAbs_inI64 hxi hx).1 (fun y hy => h y (by simp [hy])) ?_
      rcases List.mem_cons.1 hm with h' | h'
      · exact absurd h'.symm hx
      · exact h'

/-- C03: `(lcm x …)`: the non-negative common multiple that divides every common multiple, provided the least
common multiples of all prefixes fit in 64 bits. -/
theorem c03_lcm (xs : List Int) (h : ∀ x ∈ xs, InI64 x ∧ x ≠ -(2:Int)^63)
    (hp : ∀ k ≤ xs.length, InI64 (((xs.take k).foldl (fun m x => Nat.lcm m x.natAbs) 1 : Nat) : Int)) :
    ∃ m : Int, lcmP (xs.map .int) = .ok (.int m) ∧ 0 ≤ m ∧ (∀ x ∈ xs, x ∣ m) ∧
      (∀ d : Int, (∀ x ∈ xs, x ∣ d) → m ∣ d) := by
  cases xs with
  | nil => exact ⟨1, rfl, by decide, by simp, by intro d _; exact Int.one_dvd _⟩
  | cons x xs =>
    have hx := h x (by simp)
    have := lcmArgs_ok x.natAbs xs (fun y hy => h y (by simp [hy])) (by
      intro k hk
      have := hp (k+1) (by simpa using hk)
      simpa using this)
    obtain ⟨d1, d2, d3⟩ := foldl_lcm_dvd x.natAbs xs
    refine ⟨((xs.foldl (fun g x => Nat.lcm g x.natAbs) x.natAbs : Nat) : Int), ?_, ?_, ?_, ?_⟩
    · simp only [List.map_cons, lcmP, abs64_ok hx.1 hx.2, Res.bind_ok]; exact this
    · omega
    · intro y hy
      rw [← Int.natAbs_dvd_natAbs, Int.natAbs_natCast]
      rcases List.mem_cons.1 hy with rfl | hy
      · exact d1
      · exact d2 y hy
    · intro d hd
      rw [Int.ofNat_dvd_left]
      apply d3
      · exact Int.natAbs_dvd_natAbs.2 (hd x (by simp))
      · intro y hy; exact Int.natAbs_dvd_natAbs.2 (hd y (by simp [hy]))

example : (∀ x ∈ ([12, -18, 27] : List Int), InI64 x ∧ x ≠ -(2:Int)^63) := by decide
example : (∀ k ≤ ([4, -6, 10] : List Int).length,
    InI64 (((([4, -6, 10] : List Int).take k).foldl (fun m x => Nat.lcm m x.natAbs) 1 : Nat) : Int)) := by decide
example : InI64 5 ∧ InI64 (-(2:Int)^63) ∧ -(2:Int)^63 ∈ ([5, -(2:Int)^63] : List Int) := by decide

/-! ## C04 — exact division -/

/-- C04: `(/ n d …)` with at least two exact integer arguments, non-zero divisors whose running products fit:
the result is the exact quotient in canonical form (an integer, or a reduced ratio with denominator > 1). -/
theorem c04_div (n : Int) (ds : List Int) (hne : ds ≠ []) (hn : InI64 n) (hn' : n ≠ -(2:Int)^63)
    (hz : ∀ d ∈ ds, d ≠ 0) (hp : ∀ k ≤ ds.length, InI64 (Spec.prod (ds.take k)))
    (hm : Spec.prod ds ≠ -(2:Int)^63) :
    (∃ k, divP F (.int n :: ds.map .int) = .ok (.int k) ∧ n = k * Spec.prod ds) ∨
    (∃ p q, divP F (.int n :: ds.map .int) = .ok (.ratio p q) ∧ 1 < q ∧ Int.gcd p q = 1 ∧
        n * q = p * Spec.prod ds) := by
  obtain ⟨d, ds', rfl⟩ : ∃ d ds', ds = d :: ds' := by
    cases ds with | nil => exact absurd rfl hne | cons a b => exact ⟨a, b, rfl⟩
  have hl := divLoop_ok F n 1 (d :: ds') hn hz (by
    intro k hk; rw [foldl_mul_eq, Int.one_mul]; exact hp (k+1) (by omega))
  rw [foldl_mul_eq, Int.one_mul] at hl
  have hnz : ∀ l : List Int, (∀ d ∈ l, d ≠ 0) → Spec.prod l ≠ 0 := by
    intro l; induction l with
    | nil => intro _; decide
    | cons a l ih => intro h; simp only [Spec.prod]
                     exact Int.mul_ne_zero (h a (by simp)) (ih (fun x hx => h x (by simp [hx])))
  have hfull : InI64 (Spec.prod (d :: ds')) := by
    have := hp (d :: ds').length (by omega); rwa [List.take_length] at this
  have e : divP F (.int n :: (d :: ds').map .int) = makeRatio n (Spec.prod (d :: ds')) := by
    rw [← hl]; rfl
  rw [e]
  rcases makeRatio_spec n _ hn hn' hfull hm (hnz _ hz) with h | ⟨p, q, h1, h2, h3, h4, _⟩
  · exact Or.inl h
  · exact Or.inr ⟨p, q, h1, h2, h3, h4⟩

/-- C04: a zero divisor raises a Scheme error (provided the products before it fit). -/
theorem c04_div_zero (n : Int) (ds rest : List Int) (hn : InI64 n) (hz : ∀ d ∈ ds, d ≠ 0)
    (hp : ∀ k ≤ ds.length, InI64 (Spec.prod (ds.take k))) :
    divP F (.int n :: (ds ++ 0 :: rest).map .int) = .err .evalError := by
  have := divLoop_zero F n 1 ds rest hn hz (by
    intro k hk; rw [foldl_mul_eq, Int.one_mul]; exact hp (k+1) (by omega))
  cases ds with
  | nil => rw [List.nil_append] at this ⊢; exact this
  | cons d ds => rw [List.cons_append] at this ⊢; exact this

/-- C04: `(/ n)` is the reciprocal, `(/ 0)` an error, `(/)` is 1. -/
theorem c04_div_unary (n : Int) (hn : InI64 n) (hn' : n ≠ -(2:Int)^63) :
    divP F [] = .ok (.int 1) ∧ divP F [.int 0] = .err .evalError ∧
    (n ≠ 0 → (∃ k, divP F [.int n] = .ok (.int k) ∧ 1 = k * n) ∨
      (∃ p q, divP F [.int n] = .ok (.ratio p q) ∧ 1 < q ∧ Int.gcd p q = 1 ∧ q = p * n)) := by
  refine ⟨rfl, by simp [divP], ?_⟩
  intro h0
  have e : divP F [.int n] = makeRatio 1 n := by simp [divP, h0]
  rw [e]
  rcases makeRatio_spec 1 n (by decide) (by decide) hn hn' h0 with h | ⟨p, q, h1, h2, h3, h4, _⟩
  · exact Or.inl h
  · exact Or.inr ⟨p, q, h1, h2, h3, by omega⟩

example : ([4, -3] : List Int) ≠ [] ∧ InI64 10 ∧ (∀ d ∈ ([4, -3] : List Int), d ≠ 0) ∧
    (∀ k ≤ ([4, -3] : List Int).length, InI64 (Spec.prod (([4, -3] : List Int).take k))) ∧
    divP exampleF [.int 10, .int 4, .int (-3)] = .ok (.ratio (-5) 6) := by decide +kernel

/-! ## C05 — comparison chains -/

/-- The mathematical relation of a comparison builtin (specification). -/
def Spec.rel : CmpOp → Int → Int → Prop
  | .eq => (· = ·)
  | .lt => (· < ·)
  | .gt => (· > ·)
  | .le => (· ≤ ·)
  | .ge => (· ≥ ·)

theorem cmpNumber_int (op : CmpOp) (a b : Int) :
    ∃ r, cmpNumber F op (.int a) (.int b) = .ok r ∧ (r = true ↔ Spec.rel op a b) := by
  cases op <;> exact ⟨_, rfl, by simp [Spec.rel]⟩

theorem chainLoop_int (op : CmpOp) (xs : List Int) :
    ∃ r, chainLoop F op (xs.map .int) = .ok r ∧
      (r = true ↔ ∀ i, (h : i + 1 < xs.length) → Spec.rel op xs[i] xs[i+1]) := by
  induction xs with
  | nil => exact ⟨true, rfl, by simp⟩
  | cons a xs ih =>
    cases xs with
    | nil => exact ⟨true, rfl, by simp⟩
    | cons b xs =>
      obtain ⟨r1, h1, h1'⟩ := cmpNumber_int F op a b
      obtain ⟨r2, h2, h2'⟩ := ih
      simp only [List.map_cons] at h2 ⊢
      simp only [chainLoop, h1, Res.bind_ok]
      cases r1 with
      | true =>
        refine ⟨r2, by simpa using h2, h2'.trans ?_⟩
        constructor
        · intro h i hi
          cases i with
          | zero => exact h1'.1 rfl
          | succ i => exact h i (by simpa using hi)
        · intro h i hi
          exact h (i+1) (by simpa using hi)
      | false =>
        refine ⟨false, by simp, ?_⟩
        constructor
        · intro h; exact absurd h (by simp)
        · intro h; exact h1'.2 (h 0 (by simp))

/-- C05: `(op x …)` is `#t` exactly when every adjacent pair is in the relation; it never fails on exact integers. -/
theorem c05_compare (op : CmpOp) (xs : List Int) :
    ∃ r, cmpChain F op (xs.map .int) = .ok r ∧
      (r = true ↔ ∀ i, (h : i + 1 < xs.length) → Spec.rel op xs[i] xs[i+1]) := by
  match xs with
  | [] => exact ⟨true, rfl, by simp⟩
  | [_] => exact ⟨true, rfl, by simp⟩
  | [a, b] =>
    obtain ⟨r, h, h'⟩ := cmpNumber_int F op a b
    refine ⟨r, h, h'.trans ⟨?_, fun h => h 0 (by simp)⟩⟩
    intro h i hi
    have : i = 0 := by simp at hi; omega
    subst this; exact h
  | a :: b :: c :: rest => exact chainLoop_int F op (a :: b :: c :: rest)

example : cmpChain exampleF .lt ([1, 2, 5].map .int) = .ok true ∧
    cmpChain exampleF .lt ([1, 5, 2].map .int) = .ok false := by decide

/-! ## C06 — parity -/

/-- C06 (the part that holds): up to magnitude 2^53 `even?` and `odd?` decide parity. -/
theorem c06_parity_partial (n : Int) (h : n.natAbs ≤ 2^53) :
    isEvenP F (.int n) = .ok (decide (n % 2 = 0)) ∧ isOddP F (.int n) = .ok (decide (n % 2 ≠ 0)) := by
  have hi : InI64 n := by unfold InI64; omega
  have e : ∀ m : Int, (m.tmod 2 = 0) = (m % 2 = 0) := by
    intro m
    rw [← Int.dvd_iff_tmod_eq_zero, ← Int.dvd_iff_emod_eq_zero]
  have hr := rndInt_small h
  constructor
  · simp only [isEvenP, NumV.isNum, scmToDouble, ofInt_toI64, hr, i64_ok hi]
    simp [ofInt_eq_iff, e]
  · simp only [isOddP, NumV.isNum, scmToDouble, ofInt_toI64, hr, i64_ok hi]
    simp [ofInt_eq_iff, e]

/-- C06, what happens beyond: every integer of magnitude ≥ 2^53 whose double value fits in 64 bits is reported
even and not odd, whatever its parity. -/
theorem c06_parity_large (n : Int) (h : 2^53 ≤ n.natAbs) (hr : InI64 (rndInt n)) :
    isEvenP F (.int n) = .ok true ∧ isOddP F (.int n) = .ok false := by
  have e : (rndInt n).tmod 2 = 0 := by
    rw [← Int.dvd_iff_tmod_eq_zero, Int.dvd_iff_emod_eq_zero]; exact rndInt_even h
  constructor
  · simp only [isEvenP, NumV.isNum, scmToDouble, ofInt_toI64, i64_ok hr]
    simp [ofInt_eq_iff, rndInt_idem, e]
  · simp only [isOddP, NumV.isNum, scmToDouble, ofInt_toI64, i64_ok hr]
    simp [ofInt_eq_iff, rndInt_idem, e]

/-- C06 fails in full: `2^53 + 1` is odd but `even?` says `#t`; on `2^63 - 1` the double → int64 conversion is
undefined behaviour. -/
theorem c06_counterexample :
    ((2:Int)^53 + 1) % 2 = 1 ∧ isEvenP F (.int ((2:Int)^53 + 1)) = .ok true ∧
    isOddP F (.int ((2:Int)^53 + 1)) = .ok false ∧ isEvenP F (.int ((2:Int)^63 - 1)) = .ub := by
  have h := c06_parity_large F ((2:Int)^53 + 1) (by decide) (by decide)
  refine ⟨by decide, h.1, h.2, ?_⟩
  have h2 : ¬ InI64 (rndInt ((2:Int)^63 - 1)) := by decide
  simp only [isEvenP, NumV.isNum, scmToDouble, ofInt_toI64, i64_ub h2]; rfl

example : ((-3 : Int)).natAbs ≤ 2^53 ∧ isOddP exampleF (.int (-3)) = .ok true := by decide
example : 2^53 ≤ ((2:Int)^60 + 1).natAbs ∧ InI64 (rndInt ((2:Int)^60 + 1)) := by decide

/-! ## C07 — max and min -/

theorem foldl_max_small (isMax : Bool) (cur : Int) (xs : List Int) (hc : cur.natAbs ≤ 2^53)
    (h : ∀ x ∈ xs, x.natAbs ≤ 2^53) :
    let r := xs.foldl (fun c v => if (if isMax then rndInt c < rndInt v else rndInt v < rndInt c) then v else c) cur
    r ∈ cur :: xs ∧ (∀ x ∈ cur :: xs, if isMax then x ≤ r else r ≤ x) := by
  induction xs generalizing cur with
  | nil => cases isMax <;> simp
  | cons x xs ih =>
    simp only [List.foldl_cons]
    have hx := h x (by simp)
    rw [rndInt_small hc, rndInt_small hx]
    have hxs : ∀ y ∈ xs, y.natAbs ≤ 2^53 := fun y hy => h y (by simp [hy])
    by_cases hb : (if isMax = true then cur < x else x < cur)
    · rw [if_pos hb]
      obtain ⟨h1, h2⟩ := ih x hx hxs
      refine ⟨by simp only [List.mem_cons] at h1 ⊢; exact Or.inr h1, ?_⟩
      intro y hy
      rcases List.mem_cons.1 hy with rfl | hy
      · have := h2 x (by simp)
        cases isMax <;> simp at hb this ⊢ <;> omega
      · exact h2 y hy
    · rw [if_neg hb]
      obtain ⟨h1, h2⟩ := ih cur hc hxs
      refine ⟨?_, ?_⟩
      · rcases List.mem_cons.1 h1 with h1 | h1
        · rw [h1]; simp
        · simp [h1]
      · intro y hy
        rcases List.mem_cons.1 hy with rfl | hy
        · exact h2 _ (by simp)
        rcases List.mem_cons.1 hy with rfl | hy
        · have := h2 cur (by simp)
          cases isMax <;> simp at hb this ⊢ <;> omega
        · exact h2 y (by simp [hy])

/-- C07 (the part that holds): if all arguments are at most 2^53 in magnitude, `max`/`min` return an argument
that bounds all arguments. -/
theorem c07_max_min_partial (isMax : Bool) (x : Int) (xs : List Int) (h : ∀ y ∈ x :: xs, y.natAbs ≤ 2^53) :
    ∃ r, extremeP F isMax ((x :: xs).map .int) = .ok (.int r) ∧ r ∈ x :: xs ∧
      ∀ y ∈ x :: xs, if isMax then y ≤ r else r ≤ y := by
  obtain ⟨h1, h2⟩ := foldl_max_small isMax x xs (h x (by simp)) (fun y hy => h y (by simp [hy]))
  refine ⟨_, ?_, h1, h2⟩
  have hr := h _ h1
  simp only [List.map_cons, extremeP, NumV.isNum, scmToDouble, extremeLoop_ints]
  simp only [Bool.not_true, Bool.false_and, Bool.false_eq_true, ↓reduceIte, Res.bind_ok, ofInt_toI64]
  rw [rndInt_small hr, i64_ok (by unfold InI64; omega)]
  simp [ofInt_eq_iff]

/-- C07 fails in full: `(max (2^53+1))` is `2^53`, which is not an argument and is below it; and
`(max (2^63-1))` is undefined behaviour. -/
theorem c07_counterexample (isMax : Bool) :
    extremeP F isMax [.int ((2:Int)^53 + 1)] = .ok (.int ((2:Int)^53)) ∧
    extremeP F isMax [.int ((2:Int)^63 - 1)] = .ub := by
  have e1 : rndInt ((2:Int)^53 + 1) = (2:Int)^53 := by decide
  have e2 : ¬ InI64 (rndInt ((2:Int)^63 - 1)) := by decide
  constructor
  · simp only [extremeP, NumV.isNum, scmToDouble, extremeLoop, Bool.not_true, Bool.false_and, Bool.false_eq_true,
      ↓reduceIte, Res.bind_ok, ofInt_toI64, e1, i64_ok (show InI64 ((2:Int)^53) by decide)]
    rw [ofInt_eq_iff]
    have : decide (rndInt ((2:Int)^53 + 1) = rndInt ((2:Int)^53)) = true := by decide
    rw [this]; rfl
  · simp only [extremeP, NumV.isNum, scmToDouble, extremeLoop, Bool.not_true, Bool.false_and, Bool.false_eq_true,
      ↓reduceIte, Res.bind_ok, ofInt_toI64, i64_ub e2]; rfl

example : (∀ y ∈ ([3, -9, 40] : List Int), y.natAbs ≤ 2^53) ∧
    extremeP exampleF true ([3, -9, 40].map .int) = .ok (.int 40) := by decide

/-! ## C08 — expt -/

/-- C08: `(expt b e)`, `e ≥ 0`, is `b^e` whenever the powers up to `e` fit in 64 bits. -/
theorem c08_expt (b : Int) (e : Nat) (h : ∀ k ≤ e, InI64 (b ^ k)) :
    exptP (.int b) (.int e) = .ok (.int (b ^ e)) := by
  unfold exptP
  by_cases hb : b = 0
  · subst hb
    cases e with
    | zero => simp
    | succ e =>
      have : ((e + 1 : Nat) : Int) ≠ 0 := by omega
      simp only [this, and_false, ↓reduceIte]
      rw [Int.pow_succ, Int.mul_zero]
  · cases e with
    | zero => simp [hb]
    | succ e =>
      have h0 : ((e + 1 : Nat) : Int) ≠ 0 := by omega
      have h1 : ¬ ((e + 1 : Nat) : Int) < 0 := by omega
      simp only [hb, false_and, h0, h1, ↓reduceIte, Res.pure_eq, Res.bind_ok]
      have h2 : (((e + 1 : Nat) : Int) - 1).toNat = e := by omega
      have hp := powLoop_ok b e 1 (by intro i hi; exact h (1 + i) (by omega))
      rw [Int.pow_one] at hp
      rw [h2, hp]
      simp [Nat.add_comm]

/-- C08, negative exponents: only `±1` keep their exact value, every other base silently gives 0
(the exact answer `1/b^e` is not returned) — for bases of magnitude ≥ 2 when the power fits. -/
theorem c08_expt_negative (b : Int) (e : Nat) (he : 1 ≤ e) (hei : InI64 (e : Int)) (hb : 2 ≤ b.natAbs)
    (h : ∀ k ≤ e, InI64 (b ^ k)) :
    exptP (.int b) (.int (-(e:Int))) = .ok (.int 0) := by
  unfold exptP
  have hb0 : b ≠ 0 := by omega
  have h0 : -(e : Int) ≠ 0 := by omega
  have h1 : -(e : Int) < 0 := by omega
  simp only [hb0, false_and, h0, h1, ↓reduceIte, Int.neg_neg]
  rw [i64_ok hei]
  obtain ⟨k, rfl⟩ := Nat.exists_eq_add_of_le he
  have h2 : (((1 + k : Nat) : Int) - 1).toNat = k := by omega
  have hp := powLoop_ok b k 1 (by intro i hi; exact h (1 + i) (by omega))
  rw [Int.pow_one] at hp
  simp only [Res.bind_ok, h2, hp]
  have habs : 2 ≤ (b ^ (1 + k)).natAbs := by
    rw [Int.natAbs_pow]
    calc 2 ≤ b.natAbs ^ 1 := by simpa using hb
      _ ≤ b.natAbs ^ (1 + k) := Nat.pow_le_pow_right (by omega) (by omega)
  have n1 : b ^ (1 + k) ≠ 1 := by intro h; rw [h] at habs; simp at habs
  have n2 : b ^ (1 + k) ≠ -1 := by intro h; rw [h] at habs; simp at habs
  simp [n1, n2]

example : (∀ k ≤ 10, InI64 ((-3 : Int) ^ k)) ∧ exptP (.int (-3)) (.int 10) = .ok (.int 59049) := by decide
example : 1 ≤ 2 ∧ InI64 ((2:Nat):Int) ∧ 2 ≤ (5:Int).natAbs ∧ (∀ k ≤ 2, InI64 ((5:Int)^k)) := by decide

/-! ## C09 — abs and sign predicates -/

/-- C09: `abs` is absolute value, undefined exactly at `-2^63`. -/
theorem c09_abs (n : Int) (hn : InI64 n) :
    (n ≠ -(2:Int)^63 → absP (.int n) = .ok (.int (n.natAbs : Int))) ∧ absP (.int (-(2:Int)^63)) = .ub := by
  constructor
  · intro h; simp [absP, abs64_ok hn h]
  · simp only [absP, abs64_min]; rfl

theorem rndNat_zero_iff (a : Nat) : rndNat a = 0 ↔ a = 0 := by
  constructor
  · intro h
    by_cases hs : a < 2^53
    · rwa [rndNat_small hs] at h
    · have := (rndNat_range hs).1
      have := Nat.two_pow_pos (Nat.log2 a); omega
  · rintro rfl; decide

/-- C09: `zero?`, `positive?`, `negative?` are exact on all integers (although they go through `double`), hence
exactly one holds. -/
theorem c09_sign (n : Int) :
    isZeroP F (.int n) = .ok (decide (n = 0)) ∧ isPositiveP F (.int n) = .ok (decide (0 < n)) ∧
    isNegativeP F (.int n) = .ok (decide (n < 0)) := by
  have hz : Dbl.zero = Dbl.ofInt 0 := by decide
  have r0 : rndInt 0 = 0 := by decide
  have key : (rndInt n = 0 ↔ n = 0) ∧ (0 < rndInt n ↔ 0 < n) ∧ (rndInt n < 0 ↔ n < 0) := by
    have := rndNat_zero_iff n.natAbs
    unfold rndInt; split <;> omega
  refine ⟨?_, ?_, ?_⟩
  · simp only [isZeroP, NumV.isNum, scmToDouble, hz, ofInt_eq_iff, r0, key.1]; simp
  · simp only [isPositiveP, NumV.isNum, scmToDouble, hz, ofInt_lt_iff, r0, key.2.1]; simp
  · simp only [isNegativeP, NumV.isNum, scmToDouble, hz, ofInt_lt_iff, r0, key.2.2]; simp

example : InI64 (-5) ∧ (-5:Int) ≠ -(2:Int)^63 ∧ absP (.int (-5)) = .ok (.int 5) := by decide

/-! ## C85 — rationals are closed under `*` and `/`, but `+`, `-` and comparison abort on them -/

/-- Canonical exact numbers: integers, and ratios in lowest terms with denominator > 1 (specification). -/
def Spec.Canonical : NumV → Prop
  | .int _ => True
  | .ratio p q => 1 < q ∧ Int.gcd p q = 1
  | _ => False

/-- Specification: the exact number `a` is the fraction `n/d`. -/
def Spec.IsFrac (a : NumV) (n d : Int) : Prop := (a = .int n ∧ d = 1) ∨ a = .ratio n d

theorem Spec.IsFrac.asFrac {a : NumV} {n d : Int} (h : Spec.IsFrac a n d) : asFrac a = some (n, d) := by
  rcases h with ⟨rfl, rfl⟩ | rfl <;> rfl

theorem makeRatio_frac (n d : Int) (hn : InI64 n) (hn' : n ≠ -(2:Int)^63) (hd : InI64 d) (hd' : d ≠ -(2:Int)^63) (h0 : d ≠ 0) :
    ∃ r p q, makeRatio n d = .ok r ∧ Spec.Canonical r ∧ Spec.IsFrac r p q ∧ n * q = p * d := by
  rcases makeRatio_spec _ _ hn hn' hd hd' h0 with ⟨k, e, hk⟩ | ⟨p, q, e, hq, hg, hv, _⟩
  · exact ⟨.int k, k, 1, e, trivial, Or.inl ⟨rfl, rfl⟩, by rw [hk]; omega⟩
  · exact ⟨.ratio p q, p, q, e, ⟨hq, hg⟩, Or.inr rfl, hv⟩

/-- The fraction in lowest terms is unique. -/
theorem canonical_unique {n d p q : Int} (hd : 0 < d) (hq : 0 < q) (g1 : Int.gcd n d = 1) (g2 : Int.gcd p q = 1)
    (h : n * q = p * d) : n = p ∧ d = q := by
  have hdq : d ∣ q := by
    have h1 : d ∣ n * q := ⟨p, by rw [h, Int.mul_comm]⟩
    rw [← Int.natAbs_dvd_natAbs, Int.natAbs_mul] at h1
    exact Int.natAbs_dvd_natAbs.1 (Nat.Coprime.dvd_of_dvd_mul_left (by rw [Nat.Coprime, Nat.gcd_comm]; exact g1) h1)
  have hqd : q ∣ d := by
    have h1 : q ∣ p * d := ⟨n, by rw [← h, Int.mul_comm]⟩
    rw [← Int.natAbs_dvd_natAbs, Int.natAbs_mul] at h1
    exact Int.natAbs_dvd_natAbs.1 (Nat.Coprime.dvd_of_dvd_mul_left (by rw [Nat.Coprime, Nat.gcd_comm]; exact g2) h1)
  have e : d = q := Int.dvd_antisymm (by omega) (by omega) hdq hqd
  subst e
  exact ⟨Int.eq_of_mul_eq_mul_right (by omega) h, rfl⟩

theorem makeRatio_canonical (p q : Int) (hp : InI64 p) (hp' : p ≠ -(2:Int)^63) (hq : InI64 q) (h1 : 1 < q) (hg : Int.gcd p q = 1) :
    makeRatio p q = .ok (.ratio p q) := by
  rcases makeRatio_spec p q hp hp' hq (by omega) (by omega) with ⟨k, e, hk⟩ | ⟨p', q', e, hq', hg', hv, _⟩
  · exfalso
    have : q ∣ p := ⟨k, by rw [hk, Int.mul_comm]⟩
    have h2 : Int.gcd p q = q.natAbs := by
      apply Nat.dvd_antisymm
      · exact Int.natCast_dvd_natCast.1 (by rw [Int.dvd_natAbs]; exact Int.gcd_dvd_right ..)
      · exact Int.dvd_gcd (by rwa [Int.natAbs_dvd]) (by rw [Int.natAbs_dvd]; exact Int.dvd_refl _)
    omega
  · obtain ⟨rfl, rfl⟩ := canonical_unique (by omega) (by omega) hg hg' hv
    exact e

/-- C85: the product of two canonical exact numbers is canonical and has the right value, when the raw cross
products fit in 64 bits (and are not the minimum). -/
theorem c85_mul_exact (a b : NumV) (n1 d1 n2 d2 : Int) (ha : Spec.IsFrac a n1 d1) (hb : Spec.IsFrac b n2 d2)
    (ca : Spec.Canonical a) (cb : Spec.Canonical b)
    (ia : InI64 n1 ∧ n1 ≠ -(2:Int)^63 ∧ InI64 d1)
    (hn : InI64 (n1 * n2)) (hn' : n1 * n2 ≠ -(2:Int)^63) (hd : InI64 (d1 * d2)) (hd' : d1 * d2 ≠ -(2:Int)^63) :
    ∃ r p q, times F [a, b] = .ok r ∧ Spec.Canonical r ∧ Spec.IsFrac r p q ∧ (n1 * n2) * q = p * (d1 * d2) := by
  have first : scmMul F (.int 1) a = .ok a := by
    rcases ha with ⟨rfl, rfl⟩ | rfl
    · simp [scmMul, NumV.isRatio, needsFloat, NumV.isFloat, binInt, i64_ok ia.1]
    · simp only [scmMul, NumV.isRatio, asFrac, Bool.or_true, if_true, Int.one_mul, i64_ok ia.1, i64_ok ia.2.2, Res.bind_ok]
      exact makeRatio_canonical _ _ ia.1 ia.2.1 ia.2.2 ca.1 ca.2
  have pd : ∀ (x : NumV) (n d : Int), Spec.IsFrac x n d → Spec.Canonical x → d ≠ 0 := by
    intro x n d hx cx
    rcases hx with ⟨rfl, rfl⟩ | rfl
    · decide
    · have := cx.1; omega
  have e : times F [a, b] = scmMul F a b := by
    simp only [times, reduceR, first, Res.bind_ok]
    cases scmMul F a b <;> rfl
  rw [e]
  by_cases hr : (a.isRatio || b.isRatio) = true
  · unfold scmMul
    rw [if_pos hr, ha.asFrac, hb.asFrac]
    simp only [i64_ok hn, i64_ok hd, Res.bind_ok]
    exact makeRatio_frac _ _ hn hn' hd hd' (Int.mul_ne_zero (pd a n1 d1 ha ca) (pd b n2 d2 hb cb))
  · rcases ha with ⟨rfl, rfl⟩ | rfl
    · rcases hb with ⟨rfl, rfl⟩ | rfl
      · refine ⟨.int (n1 * n2), n1 * n2, 1, ?_, trivial, Or.inl ⟨rfl, rfl⟩, by omega⟩
        simp [scmMul, NumV.isRatio, needsFloat, NumV.isFloat, binInt, i64_ok hn]
      · exact absurd (by simp [NumV.isRatio]) hr
    · exact absurd (by simp [NumV.isRatio]) hr

/-- The fractions of the divisors (specification). -/
def Spec.Fracs : List NumV → List (Int × Int) → Prop
  | [], [] => True
  | a :: as, f :: fs => Spec.IsFrac a f.1 f.2 ∧ Spec.Fracs as fs
  | _, _ => False

theorem divLoop_fracs (n d : Int) (as : List NumV) (fs : List (Int × Int)) (hf : Spec.Fracs as fs)
    (hz : ∀ f ∈ fs, f.1 ≠ 0)
    (hn : ∀ k ≤ fs.length, InI64 (n * Spec.prod ((fs.map (·.2)).take k)))
    (hd : ∀ k ≤ fs.length, InI64 (d * Spec.prod ((fs.map (·.1)).take k))) :
    divLoop F n d as = makeRatio (n * Spec.prod (fs.map (·.2))) (d * Spec.prod (fs.map (·.1))) := by
  induction as generalizing n d fs with
  | nil =>
    cases fs with
    | nil => simp [divLoop, Spec.prod]
    | cons _ _ => exact absurd hf (by simp [Spec.Fracs])
  | cons a as ih =>
    cases fs with
    | nil => exact absurd hf (by simp [Spec.Fracs])
    | cons f fs =>
      obtain ⟨h1, h2⟩ := hf
      have hnum : (!a.isNum && !a.isFloat && !a.isRatio) = false := by
        rcases h1 with ⟨rfl, _⟩ | rfl <;> rfl
      have n1 : InI64 (n * f.2) := by simpa [Spec.prod] using hn 1 (by simp)
      have d1 : InI64 (d * f.1) := by simpa [Spec.prod] using hd 1 (by simp)
      simp only [divLoop, hnum, Bool.false_eq_true, if_false, h1.asFrac, i64_ok n1, i64_ok d1, Res.bind_ok,
        if_neg (hz f (by simp))]
      rw [ih (n * f.2) (d * f.1) fs h2 (fun g hg => hz g (by simp [hg]))
        (fun k hk => by simpa [Spec.prod, Int.mul_assoc] using hn (k + 1) (by simp; omega))
        (fun k hk => by simpa [Spec.prod, Int.mul_assoc] using hd (k + 1) (by simp; omega))]
      simp [Spec.prod, Int.mul_assoc]

/-- C85: `(/ a b …)` on exact numbers with non-zero divisors is the exact quotient in canonical form, when the running products fit. -/
theorem c85_div_exact (a : NumV) (n d : Int) (as : List NumV) (fs : List (Int × Int)) (ha : Spec.IsFrac a n d) (hd0 : d ≠ 0)
    (hne : as ≠ []) (hf : Spec.Fracs as fs) (hz : ∀ f ∈ fs, f.1 ≠ 0)
    (hn : ∀ k ≤ fs.length, InI64 (n * Spec.prod ((fs.map (·.2)).take k)))
    (hd : ∀ k ≤ fs.length, InI64 (d * Spec.prod ((fs.map (·.1)).take k)))
    (hn' : n * Spec.prod (fs.map (·.2)) ≠ -(2:Int)^63) (hd' : d * Spec.prod (fs.map (·.1)) ≠ -(2:Int)^63) :
    ∃ r p q, divP F (a :: as) = .ok r ∧ Spec.Canonical r ∧ Spec.IsFrac r p q ∧
      (n * Spec.prod (fs.map (·.2))) * q = p * (d * Spec.prod (fs.map (·.1))) := by
  have e : divP F (a :: as) = divLoop F n d as := by
    cases as with
    | nil => exact absurd rfl hne
    | cons b as => rcases ha with ⟨rfl, rfl⟩ | rfl <;> rfl
  rw [e, divLoop_fracs F n d as fs hf hz hn hd]
  have hnz : Spec.prod (fs.map (·.1)) ≠ 0 := by
    clear hn hd hn' hd' hf
    induction fs with
    | nil => simp [Spec.prod]
    | cons f fs ih =>
      simp only [List.map_cons, Spec.prod]
      exact Int.mul_ne_zero (hz f (by simp)) (ih (fun g hg => hz g (by simp [hg])))
  have l1 := hn fs.length (Nat.le_refl _)
  have l2 := hd fs.length (Nat.le_refl _)
  rw [List.take_of_length_le (by simp)] at l1 l2
  exact makeRatio_frac _ _ l1 hn' l2 hd' (Int.mul_ne_zero hd0 hnz)

/-- C85: `(/ p/q)` is the reciprocal. -/
theorem c85_reciprocal (p q : Int) (hp : InI64 p) (hp' : p ≠ -(2:Int)^63) (h0 : p ≠ 0) (hq : InI64 q) (h1 : 1 < q) :
    ∃ r n d, divP F [.ratio p q] = .ok r ∧ Spec.Canonical r ∧ Spec.IsFrac r n d ∧ q * d = n * p := by
  have e : divP F [.ratio p q] = makeRatio q p := by simp [divP, h0]
  rw [e]
  exact makeRatio_frac _ _ hq (by omega) hp hp' h0

/-- C85 fails for addition, subtraction, and comparison: any exact ratio operand (with no float) trips an
assertion, so `(+ 1/2 1/2)` kills the interpreter instead of returning 1. -/
theorem c85_ratio_add_aborts (p q : Int) (b : NumV) (hb : b.isFloat = false) (op : CmpOp) :
    scmAdd F (.ratio p q) b = .abort ∧ scmSub F (.ratio p q) b = .abort ∧ cmpNumber F op (.ratio p q) b = .abort ∧
    scmAdd F b (.ratio p q) = .abort ∧ scmSub F b (.ratio p q) = .abort ∧ cmpNumber F op b (.ratio p q) = .abort := by
  cases b <;> simp_all [scmAdd, scmSub, cmpNumber, needsFloat, NumV.isFloat, binInt]

example : Spec.IsFrac (.ratio 2 3) 2 3 ∧ Spec.IsFrac (.int 6) 6 1 ∧ Spec.Canonical (.ratio 2 3) ∧
    times exampleF [.ratio 2 3, .int 6] = .ok (.int 4) ∧ Spec.Fracs [.ratio 2 3, .int 6] [(2, 3), (6, 1)] ∧
    divP exampleF [.ratio 5 7, .ratio 2 3, .int 6] = .ok (.ratio 5 28) ∧ divP exampleF [.ratio 2 3] = .ok (.ratio 3 2) :=
  ⟨Or.inr rfl, Or.inl ⟨rfl, rfl⟩, ⟨by decide, by decide⟩, by decide +kernel, ⟨Or.inr rfl, Or.inl ⟨rfl, rfl⟩, trivial⟩,
    by decide +kernel, by decide +kernel⟩
example : (NumV.int 1).isFloat = false := rfl

end
end Pscm
