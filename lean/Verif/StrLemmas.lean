import Verif.Str
import Verif.StrSpec
import Verif.ListLemmas
/-! # Helper lemmas for strings -/
namespace Pscm
open Spec

theorem strOf_ok {h : Heap} {o : Obj} {a s} (hv : o.v = .str a) (hs : h.strs[a]? = some s) :
    strOf o h = (.ok (a, s), h) := by simp [strOf, hv, hs]

theorem glyphs_eq : glyphs = [48,49,50,51,52,53,54,55,56,57,97,98,99,100,101,102,103,104,105,106,107,108,109,110,111,112,113,114,115,116,117,118,119,120,121,122] := by
  decide +kernel
theorem glyphsUp_eq : glyphsUp = [48,49,50,51,52,53,54,55,56,57,65,66,67,68,69,70,71,72,73,74,75,76,77,78,79,80,81,82,83,84,85,86,87,88,89,90] := by
  decide +kernel

theorem digitOut_glyph : ∀ d, d < 36 → glyphs[d]? = some (digitOut d) := by
  rw [glyphs_eq]; decide

theorem digitIn_glyph : ∀ d, d < 36 → ∀ c, glyphs[d]? = some c → digitIn c = some d ∧ isSpace c = false ∧ c ≠ 45 ∧ c ≠ 43 ∧ c ≠ 0 := by
  intro d hd c
  rw [digitOut_glyph d hd]
  rintro ⟨rfl⟩
  revert d
  decide

theorem digitIn_glyphUp : ∀ d, d < 36 → ∀ c, glyphsUp[d]? = some c → digitIn c = some d ∧ isSpace c = false ∧ c ≠ 45 ∧ c ≠ 43 ∧ c ≠ 0 := by
  rw [glyphsUp_eq]
  intro d hd c hc
  have : ∀ d, d < 36 → ([48,49,50,51,52,53,54,55,56,57,65,66,67,68,69,70,71,72,73,74,75,76,77,78,79,80,81,82,83,84,85,86,87,88,89,90] : List UInt8)[d]? =
      some (if d < 10 then (48 + d).toUInt8 else (65 + (d - 10)).toUInt8) := by decide
  rw [this d hd] at hc
  cases hc
  revert d
  decide

/-- base-`r` digits, most significant first (helper). -/
def digs (r : Nat) : Nat → Nat → List Nat
  | 0, _ => []
  | fuel + 1, n => if 0 < n then digs r fuel (n / r) ++ [n % r] else []

theorem posValue_append (r : Nat) (ds : List Nat) (d : Nat) : posValue r (ds ++ [d]) = posValue r ds * r + d := by
  simp [posValue]

theorem digs_value {r : Nat} (hr : 2 ≤ r) : ∀ fuel n, n < 2 ^ fuel → posValue r (digs r fuel n) = n
  | 0, n, h => by simp at h; subst h; rfl
  | fuel + 1, n, h => by
    unfold digs
    split
    · rw [posValue_append, digs_value hr fuel (n / r)]
      · rw [Nat.mul_comm]; exact Nat.div_add_mod n r
      · have : n / r ≤ n / 2 := Nat.div_le_div_left hr (by omega)
        have : n / 2 < 2 ^ fuel := by omega
        omega
    · simp [posValue]; omega

theorem digs_lt {r : Nat} (hr : 2 ≤ r) : ∀ fuel n, ∀ d ∈ digs r fuel n, d < r
  | 0, n => by simp [digs]
  | fuel + 1, n => by
    unfold digs
    split
    · intro d hd
      rw [List.mem_append] at hd
      rcases hd with hd | hd
      · exact digs_lt hr fuel _ d hd
      · simp at hd; subst hd; exact Nat.mod_lt _ (by omega)
    · simp

theorem digs_head {r : Nat} (hr : 2 ≤ r) : ∀ fuel n, n < 2 ^ fuel → (digs r fuel n).head? ≠ some 0
  | 0, n, _ => by simp [digs]
  | fuel + 1, n, h => by
    unfold digs
    split
    · rename_i hn
      rw [List.head?_append]
      have hlt : n / r < 2 ^ fuel := by
        have : n / r ≤ n / 2 := Nat.div_le_div_left hr (by omega)
        omega
      have ih := digs_head hr fuel (n / r) hlt
      cases hh : (digs r fuel (n / r)).head? with
      | some x => rw [hh] at ih; simpa using ih
      | none =>
        have h0 := digs_value hr fuel (n / r) hlt
        have : digs r fuel (n / r) = [] := by
          cases hd : digs r fuel (n / r) with
          | nil => rfl
          | cons x y => rw [hd] at hh; simp at hh
        rw [this] at h0
        simp [posValue] at h0
        have hnr : n < r := by
          rcases Nat.lt_or_ge n r with h' | h'
          · exact h'
          · have := Nat.div_pos h' (by omega : 0 < r); omega
        simp [Nat.mod_eq_of_lt hnr]; omega
    · simp

theorem digs_ne_nil {r : Nat} (fuel n : Nat) (hn : 0 < n) : digs r (fuel + 1) n ≠ [] := by
  unfold digs; simp [hn]

theorem countDigits_eq {r : Nat} (hr : 2 ≤ r) : ∀ fuel n, n < 2 ^ fuel → countDigits r (fuel + 1) n = .ok (digs r fuel n).length
  | 0, n, h => by simp at h; subst h; rfl
  | fuel + 1, n, h => by
    rw [countDigits, digs]
    split
    · have hlt : n / r < 2 ^ fuel := by
        have : n / r ≤ n / 2 := Nat.div_le_div_left hr (by omega)
        omega
      rw [countDigits_eq hr fuel _ hlt]
      simp
    · rfl

theorem fillDigits_eq {r : Nat} (hr : 2 ≤ r) : ∀ fuel n, n < 2 ^ fuel → ∀ (pre gap post : List UInt8),
    gap.length = (digs r fuel n).length →
    fillDigits r (fuel + 1) n ((pre.length : Int) + gap.length - 1) (pre ++ gap ++ post) =
      .ok (pre ++ (digs r fuel n).map digitOut ++ post)
  | 0, n, h, pre, gap, post, hg => by
    simp at h; subst h
    simp [digs] at hg; subst hg
    simp [fillDigits, digs]
  | fuel + 1, n, h, pre, gap, post, hg => by
    rw [fillDigits, digs] at *
    split
    · rename_i hn
      have hlt : n / r < 2 ^ fuel := by
        have : n / r ≤ n / 2 := Nat.div_le_div_left hr (by omega)
        omega
      simp only [hn, if_true] at hg ⊢
      simp at hg
      have hpos : 0 < gap.length := by omega
      rw [if_pos (by simp; omega)]
      obtain ⟨g, x, rfl⟩ : ∃ g x, gap = g ++ [x] := by
        refine ⟨gap.dropLast, gap.getLast (by intro e; simp [e] at hpos), ?_⟩
        exact (List.dropLast_concat_getLast _).symm
      simp at hg
      have e1 : ((pre.length : Int) + ((g ++ [x]).length : Nat) - 1).toNat = (pre ++ g).length := by simp; omega
      have e2 : (pre.length : Int) + ((g ++ [x]).length : Nat) - 1 - 1 = (pre.length : Int) + g.length - 1 := by simp; omega
      have e3 : (pre ++ (g ++ [x]) ++ post).set (pre ++ g).length (digitOut (n % r)) = pre ++ g ++ (digitOut (n % r) :: post) := by
        rw [← List.append_assoc, List.append_assoc (pre ++ g) [x] post, List.set_append_right _ _ (Nat.le_refl _)]
        simp
      rw [e1, e2, e3, fillDigits_eq hr fuel _ hlt pre g _ (by omega)]
      simp
    · rename_i hn
      simp [hn] at hg
      simp [hn, hg]

/-- The text produced for an integer. -/
theorem intToStringRadix_ok {r : Nat} (hr : 2 ≤ r) {n : Int} (hn : InI64 n) (hm : n ≠ -2 ^ 63) :
    intToStringRadix n r = .ok (if n = 0 then [48] else
      (if n < 0 then [45] else []) ++ (digs r 64 n.natAbs).map digitOut) := by
  unfold InI64 at hn
  unfold intToStringRadix
  by_cases h0 : n = 0
  · simp [h0]
  · rw [if_neg h0, if_neg h0]
    have hlt : n.natAbs < 2 ^ 64 := by omega
    by_cases hneg : n < 0
    · simp only [hneg, if_true]
      rw [i64_ok (by unfold InI64; omega)]
      simp only [Res.bind_ok]
      have e : (-n).toNat = n.natAbs := by omega
      rw [e, countDigits_eq hr 64 _ hlt]
      simp only [Res.bind_ok]
      have := fillDigits_eq hr 64 _ hlt [0] (List.replicate (digs r 64 n.natAbs).length 0) [] (by simp)
      have e2 : ((([0] : List UInt8).length : Int) + (List.replicate (digs r 64 n.natAbs).length (0 : UInt8)).length - 1)
        = (((digs r 64 n.natAbs).length + 1 : Nat) : Int) - 1 := by simp; omega
      have e3 : [0] ++ List.replicate (digs r 64 n.natAbs).length (0 : UInt8) ++ [] = List.replicate ((digs r 64 n.natAbs).length + 1) 0 := by
        simp [List.replicate_succ]
      rw [e2, e3] at this
      rw [this]
      simp
    · simp only [hneg, if_false]
      simp only [Res.bind_ok]
      have e : n.toNat = n.natAbs := by omega
      rw [e, countDigits_eq hr 64 _ hlt]
      simp only [Res.bind_ok]
      have := fillDigits_eq hr 64 _ hlt [] (List.replicate (digs r 64 n.natAbs).length 0) [] (by simp)
      have e2 : ((([] : List UInt8).length : Int) + (List.replicate (digs r 64 n.natAbs).length (0 : UInt8)).length - 1)
        = (((digs r 64 n.natAbs).length : Nat) : Int) - 1 := by simp
      rw [e2] at this
      simp only [List.nil_append, List.append_nil] at this
      rw [this]
      simp

/-- Scanning spelled digits. -/
theorem scanDigits_spells (r : Nat) : ∀ (ds : List Nat) (s rest : List UInt8) (acc : Nat) (any : Bool),
    ds.length = s.length → (∀ (i d : Nat) (c : UInt8), ds[i]? = some d → s[i]? = some c → digitIn c = some d ∧ d < r) →
    (∀ c, rest.head? = some c → ∀ d, digitIn c = some d → r ≤ d) →
    scanDigits r (s ++ rest) acc any = (ds.foldl (fun a d => a * r + d) acc, (any || !ds.isEmpty), rest)
  | [], [], rest, acc, any, _, _, hr => by
    simp
    cases rest with
    | nil => simp [scanDigits]
    | cons c cs =>
      simp only [scanDigits]
      cases hd : digitIn c with
      | none => simp
      | some d => have := hr c rfl d hd; simp; omega
  | d :: ds, c :: s, rest, acc, any, hl, h, hr => by
    have h0 := h 0 d c rfl rfl
    simp only [List.cons_append, scanDigits, h0.1, if_pos h0.2]
    rw [scanDigits_spells r ds s rest _ true (by simpa using hl)
      (fun i d' c' h1 h2 => h (i + 1) d' c' (by simpa using h1) (by simpa using h2)) hr]
    simp
  | [], _ :: _, _, _, _, hl, _, _ => by simp at hl
  | _ :: _, [], _, _, _, hl, _, _ => by simp at hl

theorem spells_digit {ds : List Nat} {s : List UInt8} (hs : Spells ds s) {r : Nat} (hr : r ≤ 36) (hd : ∀ d ∈ ds, d < r) :
    ∀ (i d : Nat) (c : UInt8), ds[i]? = some d → s[i]? = some c →
      digitIn c = some d ∧ d < r ∧ isSpace c = false ∧ c ≠ 45 ∧ c ≠ 43 ∧ c ≠ 0 := by
  intro i d c h1 h2
  have hm := hd d (List.mem_of_getElem? h1)
  rcases hs.2 i d c h1 h2 with h | h
  · have := digitIn_glyph d (by omega) c h
    exact ⟨this.1, hm, this.2.1, this.2.2⟩
  · have := digitIn_glyphUp d (by omega) c h
    exact ⟨this.1, hm, this.2.1, this.2.2⟩

theorem skipHex_digits {ds : List Nat} {s : List UInt8} (hs : Spells ds s) {r : Nat} (hr : r ≤ 36) (hd : ∀ d ∈ ds, d < r)
    : skipHex r (s ++ [0]) = s ++ [0] := by
  unfold skipHex
  split
  · rename_i x d rest he
    rw [if_neg]
    rintro ⟨h16, hx, hdd⟩
    subst h16
    cases s with
    | nil => simp at he
    | cons a s =>
      cases s with
      | nil =>
        simp at he
      | cons b s =>
        simp at he
        obtain ⟨_, rfl, _⟩ := he
        have hl := hs.1
        have : ∃ e, ds[1]? = some e := ⟨ds[1]'(by simp at hl; omega), List.getElem?_eq_getElem _⟩
        obtain ⟨e, he⟩ := this
        have := spells_digit hs (by decide) hd 1 e b he (by simp)
        rcases hx with rfl | rfl
        · have h1 := this.1; have h2 := this.2.1
          simp [digitIn, isDigit, isLower] at h1; omega
        · have h1 := this.1; have h2 := this.2.1
          simp [digitIn, isDigit, isLower, isUpper] at h1; omega
  · rfl

/-- The clamped value of `strtol`. -/
def clamp (neg : Bool) (v : Nat) : Int :=
  if neg then (if 2 ^ 63 < v then -2 ^ 63 else -(v : Int)) else (if 2 ^ 63 ≤ v then 2 ^ 63 - 1 else (v : Int))

theorem strtol_spells {ds : List Nat} {s : List UInt8} (hs : Spells ds s) {r : Nat} (hr : r ≤ 36) (hd : ∀ d ∈ ds, d < r)
    (hne : ds ≠ []) (sign : List UInt8) (hsign : sign = [] ∨ sign = [45] ∨ sign = [43]) :
    strtol (sign ++ s ++ [0]) r = some (clamp (sign == [45]) (posValue r ds), [0]) := by
  have hdig := spells_digit hs hr hd
  obtain ⟨c0, s', rfl⟩ : ∃ c s', s = c :: s' := by
    cases s with
    | nil => have := hs.1; simp at this; exact absurd this hne
    | cons c s' => exact ⟨c, s', rfl⟩
  obtain ⟨d0, ds', rfl⟩ : ∃ d ds', ds = d :: ds' := by
    cases ds with
    | nil => exact absurd rfl hne
    | cons d ds' => exact ⟨d, ds', rfl⟩
  have h0 := hdig 0 d0 c0 rfl rfl
  have hscan := scanDigits_spells r (d0 :: ds') (c0 :: s') [0] 0 false hs.1
    (fun i d c h1 h2 => ⟨(hdig i d c h1 h2).1, (hdig i d c h1 h2).2.1⟩)
    (by intro c hc d hdd; simp at hc; subst hc; simp [digitIn, isDigit, isLower, isUpper] at hdd)
  have hskip := skipHex_digits hs hr hd
  have hdrop : (sign ++ (c0 :: s') ++ [0]).dropWhile isSpace = sign ++ (c0 :: s') ++ [0] := by
    rcases hsign with rfl | rfl | rfl
    · simp [List.dropWhile, h0.2.2.1]
    · simp [List.dropWhile, isSpace]
    · simp [List.dropWhile, isSpace]
  unfold strtol
  simp only [hdrop]
  rcases hsign with rfl | rfl | rfl
  · have hm : signSplit ([] ++ c0 :: s' ++ [0] : List UInt8) = (false, c0 :: s' ++ [0]) := by
      simp only [List.nil_append, List.cons_append]
      unfold signSplit
      split
      · rename_i r he; simp at he; exact absurd he.1 h0.2.2.2.1
      · rename_i r he; simp at he; exact absurd he.1 h0.2.2.2.2.1
      · rfl
    rw [hm]
    simp only [hskip, hscan]
    simp [clamp, posValue]
  · simp only [List.cons_append, List.nil_append, signSplit] at hskip hscan ⊢
    simp only [hskip, hscan]
    simp [clamp, posValue]
  · simp only [List.cons_append, List.nil_append, signSplit] at hskip hscan ⊢
    simp only [hskip, hscan]
    simp [clamp, posValue]

theorem numeral_no_float {ds : List Nat} {s : List UInt8} (hs : Spells ds s) (hd : ∀ d ∈ ds, d < 10) (sign : List UInt8)
    (hsign : sign = [] ∨ sign = [45] ∨ sign = [43]) :
    ((sign ++ s).any fun c => c == 46 || c == 101 || c == 69) = false := by
  rw [List.any_append]
  have h1 : (sign.any fun c => c == 46 || c == 101 || c == 69) = false := by
    rcases hsign with rfl | rfl | rfl <;> decide
  rw [h1, Bool.false_or, List.any_eq_false]
  intro c hc
  obtain ⟨i, hi, rfl⟩ := List.getElem_of_mem hc
  have hl := hs.1
  have := spells_digit hs (by decide) hd i (ds[i]'(by omega)) s[i] (List.getElem?_eq_getElem _) (List.getElem?_eq_getElem _)
  have hh := this.1
  have h10 := this.2.1
  intro hbad
  have : s[i] = 46 ∨ s[i] = 101 ∨ s[i] = 69 := by simpa [or_assoc] using hbad
  rcases this with e | e | e <;> rw [e] at hh <;> simp [digitIn, isDigit, isLower, isUpper] at hh <;> omega

end Pscm
