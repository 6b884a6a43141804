import Verif.Num
/-! Helper lemmas for `Verif.NumProps`. -/
namespace Pscm

theorem gcdLoop_eq (a b : Nat) : gcdLoop a b = Nat.gcd a b := by
  induction b using Nat.strongRecOn generalizing a with
  | ind b ih =>
    unfold gcdLoop
    split
    · next h => subst h; simp
    · next h =>
      rw [ih (a % b) (Nat.mod_lt _ (Nat.pos_of_ne_zero h))]
      rw [Nat.gcd_comm a b, Nat.gcd_rec b a, Nat.gcd_comm]

theorem abs64_ok {a : Int} (h : InI64 a) (h' : a ≠ -(2:Int)^63) : abs64 a = .ok (a.natAbs : Int) := by
  unfold abs64 InI64 at *
  split
  · rw [i64_ok (by unfold InI64; omega)]; congr 1; omega
  · congr 1; omega

theorem abs64_min : abs64 (-(2:Int)^63) = .ub := by decide

theorem cGcd_ok {a b : Int} (ha : InI64 a) (ha' : a ≠ -(2:Int)^63) (hb : InI64 b) (hb' : b ≠ -(2:Int)^63) :
    cGcd a b = .ok (Int.gcd a b : Int) := by
  unfold cGcd
  rw [abs64_ok ha ha', abs64_ok hb hb']
  simp [gcdLoop_eq, Int.gcd]

theorem div64_ok {a b : Int} (hb : b ≠ 0) (h : InI64 (a.tdiv b)) : div64 a b = .ok (a.tdiv b) := by
  simp [div64, hb, i64_ok h]

theorem natAbs_tdiv_le (a b : Int) : (a.tdiv b).natAbs ≤ a.natAbs := by
  rw [Int.natAbs_tdiv]; exact Nat.div_le_self _ _

theorem tdiv_inI64 {a b : Int} (ha : InI64 a) (h : ¬ (a = -(2:Int)^63 ∧ b = -1)) : InI64 (a.tdiv b) := by
  have h1 := natAbs_tdiv_le a b
  unfold InI64 at *
  by_cases hm : a = -(2:Int)^63
  · have hb : b ≠ -1 := fun hb => h ⟨hm, hb⟩
    by_cases hb1 : 0 ≤ b
    · have : a.tdiv b ≤ 0 := by
        have := Int.tdiv_nonneg (a := -a) (b := b) (by omega) hb1
        rw [Int.neg_tdiv] at this; omega
      omega
    · by_cases hz : b = 0
      · subst hz; simp
      · have hb2 : 2 ≤ b.natAbs := by omega
        have : (a.tdiv b).natAbs ≤ a.natAbs / 2 := by
          rw [Int.natAbs_tdiv]; exact Nat.div_le_div_left hb2 (by omega)
        omega
  · omega

/-- Bound on the truncated remainder. -/
theorem tmod_bounds (a b : Int) (hb : b ≠ 0) : (a.tmod b).natAbs < b.natAbs := by
  rw [Int.natAbs_tmod]; exact Nat.mod_lt _ (by omega)

theorem reduceR_ints (f : NumV → NumV → Res NumV) (g : Int → Int → Int)
    (hf : ∀ x y, f (.int x) (.int y) = (do let r ← i64 (g x y); pure (.int r))) (init : Int) (xs : List Int) :
    (∀ k, k < xs.length → InI64 ((xs.take (k+1)).foldl g init)) →
      reduceR f (.int init) (xs.map .int) = .ok (.int (xs.foldl g init)) := by
  induction xs generalizing init with
  | nil => intro _; simp [reduceR]
  | cons x xs ih =>
    intro h
    simp only [List.map_cons, reduceR, hf]
    have h0 : InI64 (g init x) := by simpa using h 0 (by simp)
    rw [i64_ok h0]
    simp only [Res.bind_ok, Res.pure_eq, List.foldl_cons]
    apply ih
    intro k hk
    have := h (k+1) (by simpa using hk)
    simpa using this

theorem reduceR_ints_ub (f : NumV → NumV → Res NumV) (g : Int → Int → Int)
    (hf : ∀ x y, f (.int x) (.int y) = (do let r ← i64 (g x y); pure (.int r))) (init : Int) (xs : List Int)
    (k : Nat) (hk : k < xs.length) (hbad : ¬ InI64 ((xs.take (k+1)).foldl g init)) :
      reduceR f (.int init) (xs.map .int) = .ub := by
  induction xs generalizing init k with
  | nil => simp at hk
  | cons x xs ih =>
    simp only [List.map_cons, reduceR, hf]
    by_cases h0 : InI64 (g init x)
    · rw [i64_ok h0]
      simp only [Res.bind_ok, Res.pure_eq]
      cases k with
      | zero => simp at hbad; exact absurd h0 hbad
      | succ k =>
        exact ih _ k (by simpa using hk) (by simpa using hbad)
    · rw [i64_ub h0]; rfl

theorem foldl_add_eq (init : Int) (xs : List Int) : xs.foldl (· + ·) init = init + xs.sum := by
  induction xs generalizing init with
  | nil => simp
  | cons x xs ih => simp [ih]; omega

theorem foldl_sub_eq (init : Int) (xs : List Int) : xs.foldl (· - ·) init = init - xs.sum := by
  induction xs generalizing init with
  | nil => simp
  | cons x xs ih => simp [ih]; omega


/-! ### gcd / lcm over argument lists -/

theorem gcd_inI64 {a b : Int} (ha : InI64 a) (hb : InI64 b) (ha' : a ≠ -(2:Int)^63) (hb' : b ≠ -(2:Int)^63) :
    InI64 (Int.gcd a b : Int) ∧ (Int.gcd a b : Int) ≠ -(2:Int)^63 := by
  unfold InI64 at *
  by_cases h : a = 0
  · subst h; simp; omega
  · have : Int.gcd a b ≤ a.natAbs := Nat.le_of_dvd (by omega) (Nat.gcd_dvd_left _ _)
    omega

theorem gcdArgs_ok (acc : Nat) (xs : List Int) (hacc : InI64 (acc : Int))
    (h : ∀ x ∈ xs, InI64 x ∧ x ≠ -(2:Int)^63) :
    gcdArgs (acc : Int) (xs.map .int) = .ok (.int ((xs.foldl (fun g x => Nat.gcd g x.natAbs) acc : Nat) : Int)) := by
  induction xs generalizing acc with
  | nil => simp [gcdArgs]
  | cons x xs ih =>
    have hx := h x (by simp)
    have hacc' : (acc : Int) ≠ -(2:Int)^63 := by omega
    simp only [List.map_cons, gcdArgs]
    rw [cGcd_ok hacc hacc' hx.1 hx.2]
    have e : Int.gcd (acc : Int) x = Nat.gcd acc x.natAbs := by simp [Int.gcd]
    have hi := gcd_inI64 hacc hx.1 hacc' hx.2
    rw [e] at hi ⊢
    simp only [Res.bind_ok, List.foldl_cons]
    exact ih _ hi.1 (fun y hy => h y (by simp [hy]))

theorem gcdArgs_ub (acc : Nat) (xs : List Int) (hacc : InI64 (acc : Int))
    (h : ∀ x ∈ xs, InI64 x) (hm : -(2:Int)^63 ∈ xs) :
    gcdArgs (acc : Int) (xs.map .int) = .ub := by
  induction xs generalizing acc with
  | nil => simp at hm
  | cons x xs ih =>
    have hx := h x (by simp)
    have hacc' : (acc : Int) ≠ -(2:Int)^63 := by omega
    simp only [List.map_cons, gcdArgs]
    by_cases hxm : x = -(2:Int)^63
    · subst hxm
      unfold cGcd
      rw [abs64_ok hacc hacc', abs64_min]; rfl
    · rw [cGcd_ok hacc hacc' hx hxm]
      have e : Int.gcd (acc : Int) x = Nat.gcd acc x.natAbs := by simp [Int.gcd]
      have hi := gcd_inI64 hacc hx hacc' hxm
      rw [e] at hi ⊢
      simp only [Res.bind_ok]
      refine ih _ hi.1 (fun y hy => h y (by simp [hy])) ?_
      rcases List.mem_cons.1 hm with h' | h'
      · exact absurd h'.symm hxm
      · exact h'

theorem foldl_gcd_dvd (acc : Nat) (xs : List Int) :
    (xs.foldl (fun g x => Nat.gcd g x.natAbs) acc) ∣ acc ∧
    (∀ x ∈ xs, (xs.foldl (fun g x => Nat.gcd g x.natAbs) acc) ∣ x.natAbs) ∧
    (∀ d, d ∣ acc → (∀ x ∈ xs, d ∣ x.natAbs) → d ∣ xs.foldl (fun g x => Nat.gcd g x.natAbs) acc) := by
  induction xs generalizing acc with
  | nil => simp
  | cons x xs ih =>
    obtain ⟨h1, h2, h3⟩ := ih (Nat.gcd acc x.natAbs)
    simp only [List.foldl_cons]
    refine ⟨Nat.dvd_trans h1 (Nat.gcd_dvd_left _ _), ?_, ?_⟩
    · intro y hy
      rcases List.mem_cons.1 hy with rfl | hy
      · exact Nat.dvd_trans h1 (Nat.gcd_dvd_right _ _)
      · exact h2 y hy
    · intro d hd hall
      exact h3 d (Nat.dvd_gcd hd (hall x (by simp))) (fun y hy => hall y (by simp [hy]))

theorem foldl_lcm_dvd (acc : Nat) (xs : List Int) :
    acc ∣ (xs.foldl (fun g x => Nat.lcm g x.natAbs) acc) ∧
    (∀ x ∈ xs, x.natAbs ∣ (xs.foldl (fun g x => Nat.lcm g x.natAbs) acc)) ∧
    (∀ d, acc ∣ d → (∀ x ∈ xs, x.natAbs ∣ d) → xs.foldl (fun g x => Nat.lcm g x.natAbs) acc ∣ d) := by
  induction xs generalizing acc with
  | nil => simp
  | cons x xs ih =>
    obtain ⟨h1, h2, h3⟩ := ih (Nat.lcm acc x.natAbs)
    simp only [List.foldl_cons]
    refine ⟨Nat.dvd_trans (Nat.dvd_lcm_left _ _) h1, ?_, ?_⟩
    · intro y hy
      rcases List.mem_cons.1 hy with rfl | hy
      · exact Nat.dvd_trans (Nat.dvd_lcm_right _ _) h1
      · exact h2 y hy
    · intro d hd hall
      exact h3 d (Nat.lcm_dvd hd (hall x (by simp))) (fun y hy => hall y (by simp [hy]))

theorem natAbs_inI64 {x : Int} (h : InI64 x) (h' : x ≠ -(2:Int)^63) :
    InI64 (x.natAbs : Int) ∧ (x.natAbs : Int) ≠ -(2:Int)^63 := by
  unfold InI64 at *; omega

theorem nat_le_inI64 {a b : Nat} (h : a ≤ b) (hb : InI64 (b : Int)) : InI64 (a : Int) := by
  unfold InI64 at *; omega

theorem lcmArgs_ok (acc : Nat) (xs : List Int)
    (h : ∀ x ∈ xs, InI64 x ∧ x ≠ -(2:Int)^63) 
    (hp : ∀ k ≤ xs.length, InI64 (((xs.take k).foldl (fun g x => Nat.lcm g x.natAbs) acc : Nat) : Int)) :
    lcmArgs (acc : Int) (xs.map .int) = .ok (.int ((xs.foldl (fun g x => Nat.lcm g x.natAbs) acc : Nat) : Int)) := by
  induction xs generalizing acc with
  | nil => simp [lcmArgs]
  | cons x xs ih =>
    have hx := h x (by simp)
    have hacc : InI64 (acc : Int) := by simpa using hp 0 (by simp)
    have hacc' : (acc : Int) ≠ -(2:Int)^63 := by omega
    have hxa : InI64 (x.natAbs : Int) ∧ (x.natAbs : Int) ≠ -(2:Int)^63 := natAbs_inI64 hx.1 hx.2
    simp only [List.map_cons, lcmArgs, List.foldl_cons]
    rw [abs64_ok hx.1 hx.2]
    simp only [Res.bind_ok]
    rw [cGcd_ok hacc hacc' hxa.1 hxa.2]
    have e : Int.gcd (acc : Int) (x.natAbs : Int) = Nat.gcd acc x.natAbs := by simp [Int.gcd]
    rw [e]
    simp only [Res.bind_ok]
    by_cases hg : Nat.gcd acc x.natAbs = 0
    · have ha0 : acc = 0 := Nat.eq_zero_of_gcd_eq_zero_left hg
      have := (foldl_lcm_dvd (Nat.lcm acc x.natAbs) xs).1
      rw [ha0] at this
      have hz : xs.foldl (fun g x => Nat.lcm g x.natAbs) (Nat.lcm acc x.natAbs) = 0 := by
        rw [ha0]; exact Nat.eq_zero_of_zero_dvd (by simpa using this)
      rw [hz, hg]
      simp
    · have hg' : ((Nat.gcd acc x.natAbs : Nat) : Int) ≠ 0 := by exact_mod_cast hg
      rw [if_neg hg']
      have hq : ((acc : Int).tdiv ((Nat.gcd acc x.natAbs : Nat) : Int)) = ((acc / Nat.gcd acc x.natAbs : Nat) : Int) := by
        simp
      have hmul : acc / Nat.gcd acc x.natAbs * x.natAbs = Nat.lcm acc x.natAbs := by
        unfold Nat.lcm
        rw [Nat.div_mul_right_comm (Nat.gcd_dvd_left _ _)]
      have hin : InI64 ((acc : Int).tdiv ((Nat.gcd acc x.natAbs : Nat) : Int)) := by
        rw [hq]; exact nat_le_inI64 (Nat.div_le_self _ _) hacc
      have hl : InI64 ((Nat.lcm acc x.natAbs : Nat) : Int) := hp 1 (by simp)
      have hcast : (acc : Int).tdiv ((Nat.gcd acc x.natAbs : Nat) : Int) * (x.natAbs : Int)
          = ((Nat.lcm acc x.natAbs : Nat) : Int) := by
        rw [hq, ← hmul, Int.natCast_mul]
      rw [div64_ok hg' hin, Res.bind_ok, hcast, i64_ok hl, Res.bind_ok]
      refine ih _ (fun y hy => h y (by simp [hy])) ?_
      intro k hk
      exact hp (k+1) (by simpa using hk)

/-! ### rationals -/

theorem makeRatio_spec (num den : Int) (hn : InI64 num) (hn' : num ≠ -(2:Int)^63)
    (hd : InI64 den) (hd' : den ≠ -(2:Int)^63) (h0 : den ≠ 0) :
    (∃ k, makeRatio num den = .ok (.int k) ∧ num = k * den) ∨
    (∃ p q, makeRatio num den = .ok (.ratio p q) ∧ 1 < q ∧ Int.gcd p q = 1 ∧ num * q = p * den ∧ InI64 p ∧ InI64 q) := by
  unfold makeRatio
  rw [if_neg h0]
  by_cases hz : num = 0
  · left; exact ⟨0, by simp [hz], by simp [hz]⟩
  · rw [if_neg hz]
    -- sign normalisation
    have key : ∀ n d : Int, InI64 n → n ≠ -(2:Int)^63 → InI64 d → 0 < d → n ≠ 0 →
        num * d = n * den →
        (∃ k, (do
          let g ← cGcd n d
          let num ← div64 n g
          let den ← div64 d g
          if den = 1 then pure (NumV.int num) else pure (.ratio num den)) = Res.ok (.int k) ∧ num = k * den) ∨
        (∃ p q, (do
          let g ← cGcd n d
          let num ← div64 n g
          let den ← div64 d g
          if den = 1 then pure (NumV.int num) else pure (.ratio num den)) = Res.ok (.ratio p q)
            ∧ 1 < q ∧ Int.gcd p q = 1 ∧ num * q = p * den ∧ InI64 p ∧ InI64 q) := by
      intro n d hn hn' hd hdpos hnz hrel
      have hd' : d ≠ -(2:Int)^63 := by unfold InI64 at *; omega
      rw [cGcd_ok hn hn' hd hd']
      have hgpos : 0 < Int.gcd n d := by
        rcases Nat.eq_zero_or_pos (Int.gcd n d) with h | h
        · rw [Int.gcd_eq_zero_iff] at h; omega
        · exact h
      have hg0 : ((Int.gcd n d : Nat) : Int) ≠ 0 := by omega
      have hgn : ((Int.gcd n d : Nat) : Int) ∣ n := Int.gcd_dvd_left ..
      have hgd : ((Int.gcd n d : Nat) : Int) ∣ d := Int.gcd_dvd_right ..
      have i1 : InI64 (n.tdiv (Int.gcd n d : Int)) := tdiv_inI64 hn (by omega)
      have i2 : InI64 (d.tdiv (Int.gcd n d : Int)) := tdiv_inI64 hd (by omega)
      simp only [Res.bind_ok]
      rw [div64_ok hg0 i1, div64_ok hg0 i2]
      simp only [Res.bind_ok]
      generalize hG : ((Int.gcd n d : Nat) : Int) = G at *
      have e1 : n.tdiv G * G = n := Int.tdiv_mul_cancel hgn
      have e2 : d.tdiv G * G = d := Int.tdiv_mul_cancel hgd
      have hGpos : 0 < G := by omega
      have hdq : 0 < d.tdiv G := by
        rcases Int.lt_trichotomy (d.tdiv G) 0 with h | h | h
        · have := Int.mul_neg_of_neg_of_pos h hGpos; omega
        · rw [h] at e2; omega
        · exact h
      have hfr : num * d.tdiv G = n.tdiv G * den := by
        have : (num * d.tdiv G) * G = (n.tdiv G * den) * G := by
          rw [Int.mul_assoc, e2, Int.mul_right_comm, e1]; exact hrel
        exact Int.eq_of_mul_eq_mul_right hg0 this
      by_cases h1 : d.tdiv G = 1
      · left
        rw [if_pos h1]
        refine ⟨_, rfl, ?_⟩
        rw [h1] at hfr; omega
      · right
        rw [if_neg h1]
        refine ⟨_, _, rfl, by omega, ?_, hfr, i1, i2⟩
        have hc : Int.gcd (n / G) (d / G) = 1 := by
          rw [← hG]; exact Int.gcd_ediv_gcd_ediv_gcd hgpos
        rw [Int.tdiv_eq_ediv_of_dvd hgn, Int.tdiv_eq_ediv_of_dvd hgd]
        exact hc
    by_cases hneg : den < 0
    · rw [if_pos hneg]
      have hin : InI64 (-num) := by unfold InI64 at *; omega
      have hid : InI64 (-den) := by unfold InI64 at *; omega
      rw [i64_ok hin, i64_ok hid]
      exact key (-num) (-den) hin (by unfold InI64 at *; omega) hid (by omega) (by omega)
        (by rw [Int.mul_neg, Int.neg_mul])
    · rw [if_neg hneg]
      exact key num den hn hn' hd (by omega) hz rfl

theorem divLoop_ok (F : FArith) (num den : Int) (ds : List Int) (hnum : InI64 num)
    (hz : ∀ d ∈ ds, d ≠ 0)
    (hp : ∀ k, k < ds.length → InI64 ((ds.take (k+1)).foldl (· * ·) den)) :
    divLoop F num den (ds.map .int) = makeRatio num (ds.foldl (· * ·) den) := by
  induction ds generalizing den with
  | nil => simp [divLoop]
  | cons d ds ih =>
    have h0 : InI64 (den * d) := by simpa using hp 0 (by simp)
    simp only [List.map_cons, divLoop, NumV.isNum, asFrac]
    simp [hz d (by simp), i64_ok hnum, i64_ok h0]
    apply ih
    · exact fun x hx => hz x (by simp [hx])
    · intro k hk
      have := hp (k+1) (by simpa using hk)
      simpa using this

theorem divLoop_zero (F : FArith) (num den : Int) (ds rest : List Int) (hnum : InI64 num)
    (hz : ∀ d ∈ ds, d ≠ 0)
    (hp : ∀ k, k < ds.length → InI64 ((ds.take (k+1)).foldl (· * ·) den)) :
    divLoop F num den ((ds ++ 0 :: rest).map .int) = .err .evalError := by
  induction ds generalizing den with
  | nil => simp [divLoop, NumV.isNum, asFrac]
  | cons d ds ih =>
    have h0 : InI64 (den * d) := by simpa using hp 0 (by simp)
    simp only [List.cons_append, List.map_cons, divLoop, NumV.isNum, asFrac]
    simp [hz d (by simp), i64_ok hnum, i64_ok h0]
    have := ih (den * d) (fun x hx => hz x (by simp [hx])) (by
      intro k hk
      have := hp (k+1) (by simpa using hk)
      simpa using this)
    simpa using this

/-! ### powers -/

theorem powLoop_ok (b : Int) (k : Nat) (j : Nat) (h : ∀ i, i ≤ k → InI64 (b ^ (j + i))) :
    powLoop b k (b ^ j) = .ok (b ^ (j + k)) := by
  induction k generalizing j with
  | zero => simp [powLoop]
  | succ k ih =>
    have h1 : InI64 (b ^ j * b) := by
      have := h 1 (by omega); rwa [Int.pow_succ] at this
    simp only [powLoop, i64_ok h1, Res.bind_ok]
    rw [← Int.pow_succ, ih (j+1)]
    · congr 2; omega
    · intro i hi
      have := h (i+1) (by omega)
      have e : j + 1 + i = j + (i + 1) := by omega
      rw [e]; exact this

/-! ### doubles -/

theorem ofInt_small {n : Int} (h : n.natAbs < 2^53) : Dbl.ofInt n = .fin (decide (n < 0)) n.natAbs 0 := by
  simp [Dbl.ofInt, Dbl.roundNat, h]

theorem scaled_same (neg : Bool) (m : Nat) (e : Int) : Dbl.scaled neg m e e = (if neg then -1 else 1) * (m : Int) := by
  simp [Dbl.scaled]


/-- The natural number `(double)a` denotes. -/
def rndNat (a : Nat) : Nat := (Dbl.roundNat a).1 * 2 ^ (Dbl.roundNat a).2

/-- The integer `(double)n` denotes. -/
def rndInt (n : Int) : Int := if n < 0 then -(rndNat n.natAbs : Int) else (rndNat n.natAbs : Int)

theorem rndNat_small {a : Nat} (h : a < 2^53) : rndNat a = a := by
  simp [rndNat, Dbl.roundNat, h]

theorem scaled_nat (neg : Bool) (m : Nat) (e b : Nat) (h : b ≤ e) :
    Dbl.scaled neg m (e:Int) (b:Int) * (2:Int)^b = (if neg then -1 else 1) * ((m * 2^e : Nat) : Int) := by
  unfold Dbl.scaled
  have : ((e:Int) - (b:Int)).toNat = e - b := by omega
  rw [this]
  obtain ⟨c, rfl⟩ := Nat.exists_eq_add_of_le h
  simp only [Nat.add_sub_cancel_left, Int.natCast_mul, Int.natCast_pow, Int.pow_add]
  simp only [Int.mul_assoc, Int.mul_comm ((2:Int)^c)]
  rfl

theorem pow_pos' (b : Nat) : 0 < (2:Int)^b := Int.pow_pos (by decide)

theorem sgn_val (n : Int) : (if decide (n < 0) = true then (-1:Int) else 1) * ((rndNat n.natAbs : Nat) : Int) = rndInt n := by
  unfold rndInt
  by_cases h : n < 0 <;> simp [h]

theorem ofInt_eq_iff (a b : Int) : (Dbl.ofInt a).eq (Dbl.ofInt b) = decide (rndInt a = rndInt b) := by
  unfold Dbl.ofInt
  simp only [Dbl.eq]
  generalize hp : Dbl.roundNat a.natAbs = p
  generalize hq : Dbl.roundNat b.natAbs = q
  have hm : min (p.2 : Int) (q.2 : Int) = ((min p.2 q.2 : Nat) : Int) := by omega
  rw [hm]
  have e1 := scaled_nat (decide (a < 0)) p.1 p.2 (min p.2 q.2) (Nat.min_le_left _ _)
  have e2 := scaled_nat (decide (b < 0)) q.1 q.2 (min p.2 q.2) (Nat.min_le_right _ _)
  have r1 : p.1 * 2^p.2 = rndNat a.natAbs := by rw [rndNat, hp]
  have r2 : q.1 * 2^q.2 = rndNat b.natAbs := by rw [rndNat, hq]
  rw [r1, sgn_val] at e1
  rw [r2, sgn_val] at e2
  rw [← e1, ← e2]
  have hpos := pow_pos' (min p.2 q.2)
  generalize Dbl.scaled _ p.1 _ _ = x
  generalize Dbl.scaled _ q.1 _ _ = y
  by_cases h : x = y
  · subst h; simp
  · have : ¬ (x * 2^(min p.2 q.2) = y * 2^(min p.2 q.2)) := by
      intro h'; exact h (Int.eq_of_mul_eq_mul_right (by omega) h')
    simp [h, this]

theorem ofInt_lt_iff (a b : Int) : (Dbl.ofInt a).lt (Dbl.ofInt b) = decide (rndInt a < rndInt b) := by
  unfold Dbl.ofInt
  simp only [Dbl.lt]
  generalize hp : Dbl.roundNat a.natAbs = p
  generalize hq : Dbl.roundNat b.natAbs = q
  have hm : min (p.2 : Int) (q.2 : Int) = ((min p.2 q.2 : Nat) : Int) := by omega
  rw [hm]
  have e1 := scaled_nat (decide (a < 0)) p.1 p.2 (min p.2 q.2) (Nat.min_le_left _ _)
  have e2 := scaled_nat (decide (b < 0)) q.1 q.2 (min p.2 q.2) (Nat.min_le_right _ _)
  have r1 : p.1 * 2^p.2 = rndNat a.natAbs := by rw [rndNat, hp]
  have r2 : q.1 * 2^q.2 = rndNat b.natAbs := by rw [rndNat, hq]
  rw [r1, sgn_val] at e1
  rw [r2, sgn_val] at e2
  rw [← e1, ← e2]
  have hpos := pow_pos' (min p.2 q.2)
  generalize Dbl.scaled _ p.1 _ _ = x
  generalize Dbl.scaled _ q.1 _ _ = y
  congr 1
  exact propext ⟨fun h => Int.mul_lt_mul_of_pos_right h hpos, fun h => Int.lt_of_mul_lt_mul_right h (by omega)⟩

theorem ofInt_toI64 (a : Int) : (Dbl.ofInt a).toI64 = i64 (rndInt a) := by
  unfold Dbl.ofInt Dbl.toI64
  simp only [Int.natCast_nonneg, ↓reduceIte, Int.toNat_natCast]
  congr 1
  unfold rndInt rndNat
  by_cases h : a < 0 <;> simp [h]

theorem roundNat_big {a : Nat} (h : ¬ a < 2^53) :
    ∃ e q r, 1 ≤ e ∧ a = q * 2^e + r ∧ r < 2^e ∧ 2^52 ≤ q ∧ q < 2^53 ∧ Nat.log2 a = 52 + e ∧
      Dbl.roundNat a = ((if (decide (2^(e-1) < r) || (r == 2^(e-1) && q % 2 == 1)) then q + 1 else q), e) := by
  have ha : a ≠ 0 := by intro h0; subst h0; simp at h
  have hl : 53 ≤ Nat.log2 a := (Nat.le_log2 ha).2 (by omega)
  have hl1 : 2 ^ Nat.log2 a ≤ a := Nat.log2_self_le ha
  have hl2 : a < 2 ^ (Nat.log2 a + 1) := Nat.lt_log2_self
  refine ⟨Nat.log2 a - 52, a / 2^(Nat.log2 a - 52), a % 2^(Nat.log2 a - 52), by omega, ?_, ?_, ?_, ?_, by omega, ?_⟩
  · exact (Nat.div_add_mod' a _).symm
  · exact Nat.mod_lt _ (Nat.two_pow_pos _)
  · rw [Nat.le_div_iff_mul_le (Nat.two_pow_pos _), ← Nat.pow_add]
    have : 52 + (Nat.log2 a - 52) = Nat.log2 a := by omega
    rwa [this]
  · rw [Nat.div_lt_iff_lt_mul (Nat.two_pow_pos _), ← Nat.pow_add]
    have : 53 + (Nat.log2 a - 52) = Nat.log2 a + 1 := by omega
    rwa [this]
  · unfold Dbl.roundNat
    rw [if_neg h]

theorem roundNat_of_parts {a e q : Nat} (he : 1 ≤ e) (ha : a = q * 2^e) (h1 : 2^52 ≤ q) (h2 : q < 2^53) :
    Dbl.roundNat a = (q, e) := by
  have hb : ¬ a < 2^53 := by
    have : 2^52 * 2^1 ≤ q * 2^e := Nat.mul_le_mul h1 (Nat.pow_le_pow_right (by decide) he)
    omega
  obtain ⟨e', q', r', he', ha', hr', hq1, hq2, hl, hround⟩ := roundNat_big hb
  have hl' : Nat.log2 a = 52 + e := by
    have ha0 : a ≠ 0 := by omega
    rw [Nat.log2_eq_iff ha0, ha]
    constructor
    · rw [Nat.pow_add]; exact Nat.mul_le_mul_right _ h1
    · have : 52 + e + 1 = 53 + e := by omega
      rw [this, Nat.pow_add]; exact Nat.mul_lt_mul_of_pos_right h2 (Nat.two_pow_pos _)
  have hee : e' = e := by omega
  subst hee
  have hqq : q' = q ∧ r' = 0 := by
    have h3 : a / 2^e' = q := by rw [ha]; exact Nat.mul_div_cancel _ (Nat.two_pow_pos _)
    have h4 : a % 2^e' = 0 := by rw [ha]; exact Nat.mul_mod_left _ _
    have h5 : a / 2^e' = q' := by
      rw [ha', Nat.mul_comm, Nat.mul_add_div (Nat.two_pow_pos _), Nat.div_eq_of_lt hr']; omega
    have h6 : a % 2^e' = r' := by
      rw [ha', Nat.mul_comm, Nat.mul_add_mod, Nat.mod_eq_of_lt hr']
    omega
  obtain ⟨rfl, rfl⟩ := hqq
  have : (0 == 2^(e'-1)) = false := by
    have := Nat.two_pow_pos (e'-1)
    simp only [beq_eq_false_iff_ne]; omega
  rw [hround, this]
  simp

theorem rndNat_idem (a : Nat) : rndNat (rndNat a) = rndNat a := by
  by_cases h : a < 2^53
  · rw [rndNat_small h, rndNat_small h]
  · obtain ⟨e, q, r, he, ha, hr, hq1, hq2, hl, hround⟩ := roundNat_big h
    have hv : rndNat a = (if (decide (2^(e-1) < r) || (r == 2^(e-1) && q % 2 == 1)) then q + 1 else q) * 2^e := by
      rw [rndNat, hround]
    generalize hm : (if (decide (2^(e-1) < r) || (r == 2^(e-1) && q % 2 == 1)) then q + 1 else q) = m at hv
    have hm1 : 2^52 ≤ m ∧ m ≤ 2^53 := by
      rw [← hm]; split <;> omega
    rw [hv]
    by_cases h53 : m = 2^53
    · have : m * 2^e = 2^52 * 2^(e+1) := by rw [h53, ← Nat.pow_add, ← Nat.pow_add]; congr 1; omega
      rw [rndNat, roundNat_of_parts (e := e+1) (q := 2^52) (by omega) this (by omega) (by decide)]
      exact this.symm
    · rw [rndNat, roundNat_of_parts (e := e) (q := m) he rfl hm1.1 (by omega)]

theorem rndInt_idem (n : Int) : rndInt (rndInt n) = rndInt n := by
  unfold rndInt
  by_cases h : n < 0
  · simp only [h, ↓reduceIte, Int.natAbs_neg, Int.natAbs_natCast, rndNat_idem]
    by_cases h0 : rndNat n.natAbs = 0
    · simp [h0]
    · have : -(rndNat n.natAbs : Int) < 0 := by omega
      rw [if_pos this]
  · simp only [h, ↓reduceIte, Int.natAbs_natCast, rndNat_idem]
    have : ¬ (rndNat n.natAbs : Int) < 0 := by omega
    simp [this]

theorem rndInt_small {n : Int} (h : n.natAbs ≤ 2^53) : rndInt n = n := by
  have : rndNat n.natAbs = n.natAbs := by
    by_cases h' : n.natAbs < 2^53
    · exact rndNat_small h'
    · have : n.natAbs = 2^53 := by omega
      rw [this]; decide
  unfold rndInt; rw [this]; split <;> omega

theorem rndInt_even {n : Int} (h : 2^53 ≤ n.natAbs) : rndInt n % 2 = 0 := by
  obtain ⟨e, q, r, he, ha, hr, hq1, hq2, hl, hround⟩ := roundNat_big (a := n.natAbs) (by omega)
  have hv : rndNat n.natAbs % 2 = 0 := by
    rw [rndNat, hround]
    obtain ⟨c, rfl⟩ := Nat.exists_eq_add_of_le he
    simp only
    rw [Nat.pow_add, Nat.pow_one]
    generalize (if (decide (2^(1+c-1) < r) || (r == 2^(1+c-1) && q % 2 == 1)) then q + 1 else q) = m
    rw [← Nat.mul_assoc, Nat.mul_right_comm, Nat.mul_mod_left]
  unfold rndInt; split <;> omega

theorem rndNat_range {a : Nat} (h : ¬ a < 2^53) :
    2^(Nat.log2 a) ≤ rndNat a ∧ rndNat a ≤ 2^(Nat.log2 a + 1) := by
  obtain ⟨e, q, r, he, ha, hr, hq1, hq2, hl, hround⟩ := roundNat_big h
  rw [rndNat, hround, hl]
  simp only
  generalize hm : (if (decide (2^(e-1) < r) || (r == 2^(e-1) && q % 2 == 1)) then q + 1 else q) = m
  have hm1 : 2^52 ≤ m ∧ m ≤ 2^53 := by rw [← hm]; split <;> omega
  constructor
  · rw [Nat.pow_add]; exact Nat.mul_le_mul_right _ hm1.1
  · have : 52 + e + 1 = 53 + e := by omega
    rw [this, Nat.pow_add]; exact Nat.mul_le_mul_right _ hm1.2

theorem rndNat_mono {a b : Nat} (hab : a ≤ b) : rndNat a ≤ rndNat b := by
  by_cases ha : a < 2^53
  · rw [rndNat_small ha]
    by_cases hb : b < 2^53
    · rw [rndNat_small hb]; exact hab
    · have := (rndNat_range hb).1
      have hb0 : b ≠ 0 := by omega
      have : 53 ≤ Nat.log2 b := (Nat.le_log2 hb0).2 (by omega)
      have : 2^53 ≤ 2^(Nat.log2 b) := Nat.pow_le_pow_right (by decide) this
      omega
  · have hb : ¬ b < 2^53 := by omega
    have ra := rndNat_range ha
    have rb := rndNat_range hb
    have hb0 : b ≠ 0 := by omega
    have ha0 : a ≠ 0 := by omega
    have hlog : Nat.log2 a ≤ Nat.log2 b := by
      rw [Nat.le_log2 hb0]; exact Nat.le_trans (Nat.log2_self_le ha0) hab
    by_cases hll : Nat.log2 a = Nat.log2 b
    · obtain ⟨e, q, r, he, hA, hr, hq1, hq2, hl, hround⟩ := roundNat_big ha
      obtain ⟨e', q', r', he', hA', hr', hq1', hq2', hl', hround'⟩ := roundNat_big hb
      have : e' = e := by omega
      subst this
      rw [rndNat, rndNat, hround, hround']
      simp only
      apply Nat.mul_le_mul_right
      have hq : q ≤ q' := by
        have h1 : a / 2^e' = q := by
          rw [hA, Nat.mul_comm, Nat.mul_add_div (Nat.two_pow_pos _), Nat.div_eq_of_lt hr]; omega
        have h2 : b / 2^e' = q' := by
          rw [hA', Nat.mul_comm, Nat.mul_add_div (Nat.two_pow_pos _), Nat.div_eq_of_lt hr']; omega
        rw [← h1, ← h2]; exact Nat.div_le_div_right hab
      rcases Nat.lt_or_eq_of_le hq with hlt | heq
      · split <;> split <;> omega
      · subst heq
        have hrr : r ≤ r' := by omega
        split
        · next h1 =>
          split
          · omega
          · next h2 =>
            exfalso; apply h2
            simp only [Bool.or_eq_true, decide_eq_true_eq, Bool.and_eq_true, beq_iff_eq] at h1 ⊢
            omega
        · split <;> omega
    · have : Nat.log2 a + 1 ≤ Nat.log2 b := by omega
      have := Nat.pow_le_pow_right (n := 2) (by decide) this
      omega

theorem rndInt_mono {a b : Int} (h : a ≤ b) : rndInt a ≤ rndInt b := by
  unfold rndInt
  split <;> split
  · have := rndNat_mono (a := b.natAbs) (b := a.natAbs) (by omega); omega
  · omega
  · omega
  · have := rndNat_mono (a := a.natAbs) (b := b.natAbs) (by omega); omega

theorem extremeLoop_ints (F : FArith) (isMax : Bool) (cur : Int) (xs : List Int) :
    extremeLoop F isMax (Dbl.ofInt cur) true (xs.map .int) =
      .ok (Dbl.ofInt (xs.foldl (fun c v => if (if isMax then rndInt c < rndInt v else rndInt v < rndInt c) then v else c) cur), true) := by
  induction xs generalizing cur with
  | nil => simp [extremeLoop]
  | cons x xs ih =>
    simp only [List.map_cons, extremeLoop, NumV.isNum, scmToDouble, List.foldl_cons]
    simp only [Bool.not_true, Bool.false_and, Bool.false_eq_true, ↓reduceIte, ofInt_lt_iff]
    rw [← ih]
    cases isMax <;> simp <;> split <;> rfl

end Pscm
