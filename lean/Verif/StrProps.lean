import Verif.StrLemmas2
import Verif.VectorProps
/-! # Properties C10, C31, C32: text of numbers, string access, string construction -/
namespace Pscm
open Spec

/-- For examples: string 0 `"hello"`, string 1 `"-ff"`, the list `(#\a #\b)` at node 0. -/
def exSH : Heap where
  nodes := [⟨⟨70, .chr 97⟩, some 1, false⟩, ⟨⟨71, .chr 98⟩, none, false⟩]
  vecs := []
  strs := [[104, 101, 108, 108, 111], [45, 102, 102], [53, 48, 48, 48, 48, 48, 48, 48, 48, 48, 48, 48, 48, 48, 48, 48, 48, 48, 48, 48]]
  nextId := 500
def exS0 : Obj := ⟨60, .str 0⟩
def exS1 : Obj := ⟨61, .str 1⟩
def exS2 : Obj := ⟨62, .str 2⟩
/-- For examples: text conversions of doubles that always fail. -/
def exT : FText := ⟨fun _ => none, fun _ => []⟩

/-! ## C10 — numerals -/

/-- The radix argument is accepted: none means 10, otherwise a number whose low 32 bits, read as an `int`, lie in 2 … 36. In particular every
number from 2 to 36. -/
def Spec.RadixArg (rest : List Obj) (r : Nat) : Prop :=
  2 ≤ r ∧ r ≤ 36 ∧ ((rest = [] ∧ r = 10) ∨ ∃ o os, rest = o :: os ∧ o.v = .num r)

theorem radixArg_ok {rest : List Obj} {r : Nat} (h : RadixArg rest r) : radixArg rest = .ok r := by
  obtain ⟨h2, h36, ⟨rfl, rfl⟩ | ⟨o, os, rfl, hv⟩⟩ := h
  · rfl
  · simp only [radixArg, hv]
    have : intCast (r : Int) = r := by unfold intCast; simp only; split <;> omega
    rw [this, if_neg (by omega)]
    simp

theorem newStr_run (s : List UInt8) (h : Heap) :
    newStr s h = (.ok ⟨h.nextId, .str h.strs.length⟩, { h with strs := h.strs ++ [s], nextId := h.nextId + 1 }) := rfl

/-- C10, printing: `number->string` writes the numeral of the number in the given radix, for every 64-bit integer except `-2^63` and every
radix from 2 to 36; nothing else changes. -/
theorem c10_print_partial (T : FText) (h : Heap) (o : Obj) (rest : List Obj) (n : Int) (r : Nat) (hv : o.v = .num n)
    (hn : InI64 n) (hm : n ≠ -2 ^ 63) (hr : RadixArg rest r) :
    ∃ s h', numberToString T (o :: rest) h = (.ok ⟨h.nextId, .str h.strs.length⟩, h') ∧ h'.strs = h.strs ++ [s] ∧
      IsNumeral r n s ∧ h'.nodes = h.nodes ∧ h'.vecs = h.vecs := by
  have h2 := hr.1
  have h36 := hr.2.1
  simp only [numberToString, hv]
  rw [M.bind_ok (x := M.lift _) (a := r) (h' := h) (by rw [radixArg_ok hr]; rfl)]
  rw [M.bind_ok (x := M.lift _) (h' := h) (by rw [intToStringRadix_ok h2 hn hm]; rfl)]
  rw [newStr_run]
  refine ⟨_, _, rfl, rfl, ?_, rfl, rfl⟩
  by_cases h0 : n = 0
  · subst h0
    refine ⟨[0], by simp, by simp; omega, by simp, by simp [posValue], ?_⟩
    rw [glyphs_eq]; rfl
  · rw [if_neg h0]
    unfold InI64 at hn
    have hlt : n.natAbs < 2 ^ 64 := by omega
    refine ⟨digs r 64 n.natAbs, digs_ne_nil 63 _ (by omega), digs_lt h2 _ _, ?_, digs_value h2 64 _ hlt, ?_⟩
    · intro hh; exact absurd hh (digs_head h2 64 _ hlt)
    · rw [List.map_append]
      congr 1
      · by_cases hneg : n < 0 <;> simp [hneg]
      · rw [List.map_map]
        apply List.map_congr_left
        intro d hd
        have := digs_lt h2 _ _ d hd
        simp only [Function.comp]
        rw [digitOut_glyph d (by omega)]

example : RadixArg [exNum 16] 16 ∧ InI64 (-255) ∧
    (numberToString exT [⟨9, .num (-255)⟩, exNum 16] exSH).2.strs.getLast? = some [45, 102, 102] :=
  ⟨⟨by decide, by decide, .inr ⟨_, _, rfl, rfl⟩⟩, by decide, by decide +kernel⟩

theorem numeral_spells {r : Nat} {n : Int} {s : List UInt8} (h : IsNumeral r n s) :
    ∃ ds t, ds ≠ [] ∧ (∀ d ∈ ds, d < r) ∧ posValue r ds = n.natAbs ∧ Spells ds t ∧ s = (if n < 0 then [45] else []) ++ t := by
  obtain ⟨ds, h1, h2, -, h4, h5⟩ := h
  have key : ∃ t, s = (if n < 0 then [45] else []) ++ t ∧ t.map some = ds.map (fun d => glyphs[d]?) := by
    by_cases hneg : n < 0
    · simp only [hneg, if_true] at h5 ⊢
      cases s with
      | nil => simp at h5
      | cons c t => simp at h5; exact ⟨t, by simp [h5.1], h5.2⟩
    · simp only [hneg, if_false] at h5 ⊢
      exact ⟨s, by simp, by simpa using h5⟩
  obtain ⟨t, rfl, ht⟩ := key
  refine ⟨ds, t, h1, h2, h4, ⟨?_, ?_⟩, rfl⟩
  · have := congrArg List.length ht; simpa using this.symm
  · intro i d c hd hc
    left
    have := congrArg (fun l => l[i]?) ht
    simp [hd, hc] at this
    exact this.symm

/-- C10, reading: every text made of an optional sign and at least one digit of the radix (in either case) is read as the number it denotes,
if that number fits in 64 bits; otherwise as the nearest 64-bit number. -/
theorem c10_read (T : FText) (h : Heap) (o : Obj) (a : Addr) (rest : List Obj) (r : Nat) (sign t : List UInt8) (ds : List Nat)
    (hv : o.v = .str a) (hs : h.strs[a]? = some (sign ++ t)) (hr : RadixArg rest r)
    (hsign : sign = [] ∨ sign = [45] ∨ sign = [43]) (hne : ds ≠ []) (hd : ∀ d ∈ ds, d < r) (hsp : Spells ds t) :
    ∃ n h', stringToNumber T (o :: rest) h = (.ok ⟨h.nextId, .num n⟩, h') ∧ h'.strs = h.strs ∧ h'.nodes = h.nodes ∧
      (let v : Int := if sign = [45] then -(posValue r ds : Int) else posValue r ds
       n = if v < -2 ^ 63 then -2 ^ 63 else if 2 ^ 63 ≤ v then 2 ^ 63 - 1 else v) := by
  have h36 := hr.2.1
  have htl : t.length ≠ 0 := by
    have := hsp.1
    have : ds.length ≠ 0 := by simpa using hne
    omega
  simp only [stringToNumber]
  rw [M.bind_ok (strOf_ok hv hs)]
  simp only
  rw [M.bind_ok (x := M.lift _) (a := r) (h' := h) (by rw [radixArg_ok hr]; rfl)]
  rw [if_neg (by simp; intro h; simpa using htl)]
  rw [if_neg (by
    rintro ⟨h1, h2⟩
    subst h2
    rw [numeral_no_float hsp hd sign hsign] at h1
    cases h1)]
  rw [strtol_spells hsp h36 hd hne sign hsign]
  refine ⟨clamp (sign == [45]) (posValue r ds), { h with nextId := h.nextId + 1 }, rfl, rfl, rfl, ?_⟩
  simp only [clamp]
  generalize posValue r ds = v
  rcases hsign with rfl | rfl | rfl
  · simp only [show (([] : List UInt8) == [45]) = false from rfl, if_neg (show ¬ (([] : List UInt8) = [45]) by decide)]
    rw [if_neg (by omega : ¬ ((v : Int) < -2 ^ 63))]
    simp only [Bool.false_eq_true, if_false]
    split <;> split <;> omega
  · simp only [show (([45] : List UInt8) == [45]) = true from rfl, if_true]
    split
    · rw [if_pos (by omega)]
    · rw [if_neg (by omega), if_neg (by omega)]
  · simp only [show (([43] : List UInt8) == [45]) = false from rfl, if_neg (show ¬ (([43] : List UInt8) = [45]) by decide)]
    rw [if_neg (by omega : ¬ ((v : Int) < -2 ^ 63))]
    simp only [Bool.false_eq_true, if_false]
    split <;> split <;> omega

example : exSH.strs[1]? = some ([45] ++ [102, 102]) ∧ RadixArg [exNum 16] 16 ∧ posValue 16 [15, 15] = 255 ∧ Spells [15, 15] [102, 102] ∧
    (stringToNumber exT [exS1, exNum 16] exSH).1 = .ok ⟨500, .num (-255)⟩ ∧
    (stringToNumber exT [exS2] exSH).1 = .ok ⟨500, .num (2 ^ 63 - 1)⟩ := by
  refine ⟨rfl, ⟨by decide, by decide, .inr ⟨_, _, rfl, rfl⟩⟩, rfl, ⟨rfl, ?_⟩, by decide +kernel, by decide +kernel⟩
  intro i d c h1 h2
  rw [glyphs_eq]
  match i, h1, h2 with
  | 0, h1, h2 => cases h1; cases h2; decide
  | 1, h1, h2 => cases h1; cases h2; decide
  | i + 2, h1, _ => simp at h1

/-- C10: `string->number` inverts `number->string` in every radix from 2 to 36, for every 64-bit integer except `-2^63`. -/
theorem c10_roundtrip_partial (T : FText) (h : Heap) (o : Obj) (rest : List Obj) (n : Int) (r : Nat) (hv : o.v = .num n)
    (hn : InI64 n) (hm : n ≠ -2 ^ 63) (hr : RadixArg rest r) :
    ∃ s h1 m h2, numberToString T (o :: rest) h = (.ok s, h1) ∧ stringToNumber T (s :: rest) h1 = (.ok m, h2) ∧ m.v = .num n := by
  obtain ⟨s, h1, e1, hs, hnum, -, -⟩ := c10_print_partial T h o rest n r hv hn hm hr
  obtain ⟨ds, t, hne, hd, hval, hsp, rfl⟩ := numeral_spells hnum
  obtain ⟨m, h2, e2, -, -, hm2⟩ := c10_read T h1 ⟨h.nextId, .str h.strs.length⟩ h.strs.length rest r (if n < 0 then [45] else []) t ds rfl
    (by rw [hs]; simp) hr (by by_cases hneg : n < 0 <;> simp [hneg]) hne hd hsp
  refine ⟨_, h1, _, h2, e1, e2, ?_⟩
  simp only
  congr 1
  rw [hm2, hval]
  unfold InI64 at hn
  by_cases hneg : n < 0
  · simp only [hneg, if_true]
    rw [if_neg (by omega), if_neg (by omega)]; omega
  · simp only [hneg, if_false]
    simp only [List.nil_eq, List.cons_ne_nil, if_false, reduceCtorEq]
    rw [if_neg (by omega), if_neg (by omega)]; omega

example : InI64 (-255) ∧ RadixArg [exNum 36] 36 := ⟨by decide, ⟨by decide, by decide, .inr ⟨_, _, rfl, rfl⟩⟩⟩

/-- C10 fails for the smallest integer: printing `-2^63` negates it, which is undefined behaviour, in every radix. -/
theorem c10_min_undefined (T : FText) (h : Heap) (o : Obj) (rest : List Obj) (r : Nat) (hv : o.v = .num (-2 ^ 63))
    (hr : RadixArg rest r) : numberToString T (o :: rest) h = (.ub, h) := by
  simp only [numberToString, hv]
  rw [M.bind_ok (x := M.lift _) (a := r) (h' := h) (by rw [radixArg_ok hr]; rfl)]
  have : intToStringRadix (-2 ^ 63) r = .ub := by
    unfold intToStringRadix
    rw [if_neg (by decide), if_pos (by decide), i64_ub (by decide)]
    rfl
  rw [this]
  rfl

/-- C10: a radix below 2 or above 36 (and below 2^31 in magnitude), or one that is not an integer, is rejected by both procedures. -/
theorem c10_bad_radix (T : FText) (h : Heap) (o s k : Obj) (a : Addr) (t : List UInt8) (n : Int) (hv : o.v = .num n)
    (hs : s.v = .str a) (ht : h.strs[a]? = some t)
    (hk : ∀ r : Int, k.v = .num r → -2 ^ 31 ≤ r ∧ r < 2 ^ 31 ∧ (r < 2 ∨ 36 < r)) :
    numberToString T [o, k] h = (.err .evalError, h) ∧ stringToNumber T [s, k] h = (.err .evalError, h) := by
  have : radixArg [k] = .err .evalError := by
    simp only [radixArg]
    cases hkv : k.v with
    | num r =>
      have := hk r hkv
      simp only
      have e : intCast r = r := by unfold intCast; simp only; split <;> omega
      rw [e, if_pos (by omega)]
    | _ => rfl
  constructor
  · simp only [numberToString, hv, this]
    exact M.bind_err rfl
  · simp only [stringToNumber]
    rw [M.bind_ok (strOf_ok hs ht)]
    simp only [this]
    exact M.bind_err rfl

example : (∀ r : Int, (exNum 37).v = .num r → -2 ^ 31 ≤ r ∧ r < 2 ^ 31 ∧ (r < 2 ∨ 36 < r)) := by
  intro r hr; cases hr; decide

/-! ## C31 — bounds and exactness -/

/-- C31: `string-ref` in range is the byte, otherwise a Scheme error; no existing object changes. -/
theorem c31_ref (h : Heap) (o k : Obj) (a : Addr) (s : List UInt8) (hv : o.v = .str a) (hs : h.strs[a]? = some s) :
    (∀ (i : Nat) c, k.v = .num i → s[i]? = some c → ∃ h', stringRef o k h = (.ok ⟨h.nextId, .chr c⟩, h') ∧ Ext h h') ∧
    ((∀ i : Nat, k.v = .num i → s.length ≤ i) → stringRef o k h = (.err .evalError, h)) := by
  constructor
  · intro i c hk hi
    have hlt := getElem?_lt hi
    refine ⟨{ h with nextId := h.nextId + 1 }, ?_, ext_newId h _ (by omega)⟩
    simp only [stringRef]
    rw [M.bind_ok (strOf_ok hv hs)]
    simp only
    rw [M.bind_ok (x := M.lift _) (a := (i : Int)) (h' := h) (by simp [numOf, hk])]
    rw [if_neg (by omega)]
    simp [hi, newObj]
  · intro hk
    simp only [stringRef]
    rw [M.bind_ok (strOf_ok hv hs)]
    simp only
    cases hkv : k.v with
    | num n =>
      rw [M.bind_ok (x := M.lift _) (a := n) (h' := h) (by simp [numOf, hkv])]
      rw [if_pos]
      · rfl
      · by_cases hn : n < 0
        · exact .inl hn
        · have := hk n.toNat (by rw [hkv]; congr 1; omega)
          omega
    | _ => exact M.bind_err (by simp [numOf, hkv])

example : exS0.v = .str 0 ∧ exSH.strs[0]? = some [104, 101, 108, 108, 111] ∧
    (stringRef exS0 (exNum 1) exSH).1 = .ok ⟨500, .chr 101⟩ ∧ (stringRef exS0 (exNum 5) exSH).1 = .err .evalError := by decide

/-- C31: `string-set!` in range replaces exactly that byte of exactly that string; with a bad index or a non-character it is a Scheme
error and nothing changes. -/
theorem c31_set (h : Heap) (o k ch : Obj) (a : Addr) (s : List UInt8) (hv : o.v = .str a) (hs : h.strs[a]? = some s) :
    (∀ (i : Nat) c, k.v = .num i → i < s.length → ch.v = .chr c → ∃ h', stringSet o k ch h = (.ok Obj.none, h') ∧
      h'.strs[a]? = some (s.set i c) ∧ (∀ b, b ≠ a → h'.strs[b]? = h.strs[b]?) ∧ h'.nodes = h.nodes ∧ h'.vecs = h.vecs) ∧
    (((∀ i : Nat, k.v = .num i → s.length ≤ i) ∨ ∀ c, ch.v ≠ .chr c) → stringSet o k ch h = (.err .evalError, h)) := by
  have ha := getElem?_lt hs
  constructor
  · intro i c hk hi hc
    refine ⟨{ h with strs := h.strs.set a (s.set i c) }, ?_, by simp [ha], ?_, rfl, rfl⟩
    · simp only [stringSet]
      rw [M.bind_ok (strOf_ok hv hs)]
      simp only
      rw [M.bind_ok (x := M.lift _) (a := (i : Int)) (h' := h) (by simp [numOf, hk])]
      rw [M.bind_ok (x := M.lift _) (a := c) (h' := h) (by simp [charOf, hc])]
      rw [if_neg (by omega)]
      simp [writeStr, hi]
    · intro b hb
      show (h.strs.set a _)[b]? = _
      rw [List.getElem?_set_ne (Ne.symm hb)]
  · intro hbad
    simp only [stringSet]
    rw [M.bind_ok (strOf_ok hv hs)]
    simp only
    cases hkv : k.v with
    | num n =>
      rw [M.bind_ok (x := M.lift _) (a := n) (h' := h) (by simp [numOf, hkv])]
      cases hcv : ch.v with
      | chr c =>
        rw [M.bind_ok (x := M.lift _) (a := c) (h' := h) (by simp [charOf, hcv])]
        rw [if_pos]
        · rfl
        · rcases hbad with hk | hc
          · by_cases hn : n < 0
            · exact .inl hn
            · have := hk n.toNat (by rw [hkv]; congr 1; omega)
              omega
          · exact absurd hcv (hc c)
      | _ => exact M.bind_err (by simp [charOf, hcv])
    | _ => exact M.bind_err (by simp [numOf, hkv])

example : (stringSet exS0 (exNum 4) ⟨1, .chr 33⟩ exSH).2.strs[0]? = some [104, 101, 108, 108, 33] := by decide

/-- C31: `substring` returns a new string with exactly the bytes from `i` to `j` when `0 ≤ i ≤ j ≤ length`, otherwise a Scheme error. -/
theorem c31_substring (h : Heap) (o p q : Obj) (a : Addr) (s : List UInt8) (hv : o.v = .str a) (hs : h.strs[a]? = some s) :
    (∀ i j : Nat, p.v = .num i → q.v = .num j → i ≤ j → j ≤ s.length →
      ∃ h' r, substring o p q h = (.ok ⟨h.nextId, .str h.strs.length⟩, h') ∧ h'.strs = h.strs ++ [r] ∧ h'.nodes = h.nodes ∧
        h'.vecs = h.vecs ∧ r.length = j - i ∧ ∀ k, k < j - i → r[k]? = s[i + k]?) ∧
    ((∀ i j : Nat, p.v = .num i → q.v = .num j → j < i ∨ s.length < j) → substring o p q h = (.err .evalError, h)) := by
  constructor
  · intro i j hp hq hij hj
    refine ⟨{ h with strs := h.strs ++ [(s.drop i).take (j - i)], nextId := h.nextId + 1 }, (s.drop i).take (j - i), ?_, rfl, rfl, rfl,
      by simp; omega, ?_⟩
    · simp only [substring]
      rw [M.bind_ok (strOf_ok hv hs)]
      simp only
      rw [M.bind_ok (x := M.lift _) (a := (i : Int)) (h' := h) (by simp [numOf, hp])]
      rw [M.bind_ok (x := M.lift _) (a := (j : Int)) (h' := h) (by simp [numOf, hq])]
      rw [if_neg (by omega), if_neg (by omega)]
      have : ((j : Int) - i).toNat = j - i := by omega
      simp [newStr, this]
    · intro k hk
      rw [List.getElem?_take_of_lt hk, List.getElem?_drop]
  · intro hbad
    simp only [substring]
    rw [M.bind_ok (strOf_ok hv hs)]
    simp only
    cases hpv : p.v with
    | num i =>
      rw [M.bind_ok (x := M.lift _) (a := i) (h' := h) (by simp [numOf, hpv])]
      cases hqv : q.v with
      | num j =>
        rw [M.bind_ok (x := M.lift _) (a := j) (h' := h) (by simp [numOf, hqv])]
        by_cases h1 : i < 0 ∨ (s.length : Int) < i
        · rw [if_pos h1]; rfl
        · rw [if_neg h1]
          by_cases h2 : j < 0
          · rw [if_pos (by omega)]; rfl
          · have := hbad i.toNat j.toNat (by rw [hpv]; congr 1; omega) (by rw [hqv]; congr 1; omega)
            rw [if_pos (by omega)]; rfl
      | _ => exact M.bind_err (by simp [numOf, hqv])
    | _ => exact M.bind_err (by simp [numOf, hpv])

example : (substring exS0 (exNum 1) (exNum 4) exSH).2.strs.getLast? = some [101, 108, 108] ∧
    (substring exS0 (exNum 3) (exNum 2) exSH).1 = .err .evalError := by decide

/-- C31: on anything but a string every string operation is a Scheme error. -/
theorem c31_non_string (h : Heap) (o k c : Obj) (hv : o.v.ty ≠ .str) :
    stringRef o k h = (.err .evalError, h) ∧ stringSet o k c h = (.err .evalError, h) ∧
    substring o k c h = (.err .evalError, h) ∧ stringLength o h = (.err .evalError, h) ∧
    stringToList o h = (.err .evalError, h) := by
  have : strOf o h = (.err .evalError, h) := by
    unfold strOf
    cases hh : o.v <;> simp_all [Val.ty]
  exact ⟨M.bind_err this, M.bind_err this, M.bind_err this, M.bind_err this, M.bind_err this⟩

example : (exNum 3).v.ty ≠ .str := by decide

/-- Execute a sequence of `string-set!` calls on one string; a failing call is caught and the sequence goes on. -/
def runStrSets (o : Obj) : List (Obj × Obj) → Heap → Heap
  | [], h => h
  | (k, x) :: ops, h => runStrSets o ops (stringSet o k x h).2

/-- The character last written at index `i`, starting from `d`. -/
def Spec.lastChar (i : Nat) (d : UInt8) : List (Obj × Obj) → UInt8
  | [] => d
  | (k, x) :: ops => Spec.lastChar i (if k.v = .num i then (match x.v with | .chr c => c | _ => d) else d) ops

/-- C31, for any history: after any sequence of `string-set!` calls, with any arguments, `string-ref` gives the character last written
there, and the length is unchanged. -/
theorem c31_history (o k : Obj) (a : Addr) (i : Nat) (hv : o.v = .str a) (hk : k.v = .num i) : ∀ (ops : List (Obj × Obj)) (h : Heap)
    (s : List UInt8) (d : UInt8), h.strs[a]? = some s → s[i]? = some d →
    (∃ n h', stringRef o k (runStrSets o ops h) = (.ok ⟨n, .chr (lastChar i d ops)⟩, h')) ∧
    ∃ s', (runStrSets o ops h).strs[a]? = some s' ∧ s'.length = s.length
  | [], h, s, d, hs, hd => by
    obtain ⟨h', e, -⟩ := (c31_ref h o k a s hv hs).1 i d hk hd
    exact ⟨⟨_, _, e⟩, s, hs, rfl⟩
  | (k', x) :: ops, h, s, d, hs, hd => by
    have hi := getElem?_lt hd
    by_cases hin : ∃ (j : Nat) (c : UInt8), k'.v = .num j ∧ j < s.length ∧ x.v = .chr c
    · obtain ⟨j, c, hj, hjl, hc⟩ := hin
      obtain ⟨h', e, h1, -, -, -⟩ := (c31_set h o k' x a s hv hs).1 j c hj hjl hc
      have hd' : (s.set j c)[i]? = some (if k'.v = .num i then (match x.v with | .chr c => c | _ => d) else d) := by
        by_cases hji : j = i
        · subst hji; simp [hj, hc, hjl]
        · rw [List.getElem?_set_ne hji, hd, if_neg]
          rw [hj]; intro hh; apply hji; simp at hh; omega
      have := c31_history o k a i hv hk ops h' (s.set j c) _ h1 hd'
      simp only [runStrSets, e, lastChar]
      simpa using this
    · have e := (c31_set h o k' x a s hv hs).2 (by
        by_cases hc : ∃ c, x.v = .chr c
        · left
          obtain ⟨c, hc⟩ := hc
          intro j hj
          rcases Nat.lt_or_ge j s.length with hjl | hjl
          · exact absurd ⟨j, c, hj, hjl, hc⟩ hin
          · exact hjl
        · right; intro c hcc; exact hc ⟨c, hcc⟩)
      have : (if k'.v = .num i then (match x.v with | .chr c => c | _ => d) else d) = d := by
        by_cases hki : k'.v = .num i
        · rw [if_pos hki]
          cases hx : x.v with
          | chr c => exact absurd ⟨i, c, hki, hi, hx⟩ hin
          | _ => rfl
        · rw [if_neg hki]
      simp only [runStrSets, e, lastChar, this]
      exact c31_history o k a i hv hk ops h s d hs hd

example : lastChar 1 101 [(exNum 1, ⟨0, .chr 65⟩), (exNum 1, exNum 5), (exNum 99, ⟨0, .chr 66⟩)] = 65 := by decide

/-- C31: `make-string` makes a new string of the given length filled with the character (a space by default). Partial: lengths below `2^31`. -/
theorem c31_make_partial (h : Heap) (k ch : Obj) (n : Nat) (c : UInt8) (hk : k.v = .num n) (hn : n < 2 ^ 31) (hc : ch.v = .chr c) :
    (∃ h', makeString [k, ch] h = (.ok ⟨h.nextId, .str h.strs.length⟩, h') ∧ h'.strs = h.strs ++ [List.replicate n c] ∧ h'.nodes = h.nodes) ∧
    (∃ h', makeString [k] h = (.ok ⟨h.nextId, .str h.strs.length⟩, h') ∧ h'.strs = h.strs ++ [List.replicate n 32] ∧ h'.nodes = h.nodes) := by
  constructor
  · refine ⟨{ h with strs := h.strs ++ [List.replicate n c], nextId := h.nextId + 1 }, ?_, rfl, rfl⟩
    simp only [makeString, makeStringImpl]
    rw [M.bind_ok (x := M.lift _) (a := (n : Int)) (h' := h) (by simp [numOf, hk])]
    rw [if_neg (by omega)]
    rw [M.bind_ok (x := M.lift _) (a := c) (h' := h) (by simp [charOf, hc])]
    rw [if_neg (by omega)]
    simp [newStr]
  · refine ⟨{ h with strs := h.strs ++ [List.replicate n 32], nextId := h.nextId + 1 }, ?_, rfl, rfl⟩
    simp only [makeString, makeStringImpl]
    rw [M.bind_ok (x := M.lift _) (a := (n : Int)) (h' := h) (by simp [numOf, hk])]
    rw [if_neg (by omega)]
    rw [M.bind_ok (x := Pure.pure _) (a := (32 : UInt8)) (h' := h) rfl]
    rw [if_neg (by omega)]
    simp [newStr]

example : (exNum 4).v = .num (4 : Nat) ∧ (makeString [exNum 2, ⟨5, .chr 90⟩] exSH).2.strs.getLast? = some [90, 90] := by decide

/-- C31 fails for huge lengths: `(make-string n)` with `n ≥ 2^31` overflows the loop counter. -/
theorem c31_make_huge (h : Heap) (k : Obj) (n : Int) (hk : k.v = .num n) (hn : 2 ^ 31 ≤ n) : makeString [k] h = (.ub, h) := by
  simp only [makeString, makeStringImpl]
  rw [M.bind_ok (x := M.lift _) (a := n) (h' := h) (by simp [numOf, hk])]
  rw [if_neg (by omega)]
  rw [M.bind_ok (x := Pure.pure _) (a := (32 : UInt8)) (h' := h) rfl]
  rw [if_pos (by omega)]
  rfl

example : (⟨1, .num (2 ^ 31)⟩ : Obj).v = .num (2 ^ 31) := rfl

/-! ## C32 — construction -/

theorem strAppendArgs_run {h : Heap} : ∀ {args : List Obj} {ss : List (List UInt8)},
    args.map (fun o => match o.v with | .str a => h.strs[a]? | _ => none) = ss.map some →
    strAppendArgs args h = (.ok ss.flatten, h)
  | [], [], _ => rfl
  | o :: os, s :: ss, hh => by
    simp only [List.map_cons, List.cons.injEq] at hh
    have ho : ∃ a, o.v = .str a ∧ h.strs[a]? = some s := by
      cases hv : o.v with
      | str a => rw [hv] at hh; exact ⟨a, rfl, hh.1⟩
      | _ => rw [hv] at hh; simp at hh
    obtain ⟨a, hv, hs⟩ := ho
    simp only [strAppendArgs]
    rw [M.bind_ok (strOf_ok hv hs)]
    simp only
    rw [M.bind_ok (strAppendArgs_run hh.2)]
    simp
  | [], _ :: _, hh => by simp at hh
  | _ :: _, [], hh => by simp at hh

/-- C32: `string-append` of any number of strings is a new string holding the concatenation of their bytes; its length is the sum of the
lengths. Partial: total length below `2^31 - 1`. -/
theorem c32_append_partial (h : Heap) (args : List Obj) (ss : List (List UInt8))
    (hargs : args.map (fun o => match o.v with | .str a => h.strs[a]? | _ => none) = ss.map some)
    (hlen : ss.flatten.length < 2 ^ 31 - 1) :
    ∃ h', stringAppend args h = (.ok ⟨h.nextId, .str h.strs.length⟩, h') ∧ h'.strs = h.strs ++ [ss.flatten] ∧
      h'.nodes = h.nodes ∧ h'.vecs = h.vecs ∧ ss.flatten.length = (ss.map List.length).sum := by
  refine ⟨{ h with strs := h.strs ++ [ss.flatten], nextId := h.nextId + 1 }, ?_, rfl, rfl, rfl, by simp [List.length_flatten]⟩
  simp only [stringAppend]
  rw [M.bind_ok (strAppendArgs_run hargs)]
  rw [M.bind_ok (x := M.lift _) (a := ((ss.flatten.length : Int) + 1)) (h' := h) (by
    simp only [M.lift_app, i32]; rw [if_pos (by omega)])]
  rfl

example : [exS0, exS1, exS0].map (fun o => match o.v with | .str a => exSH.strs[a]? | _ => none) =
      [[104, 101, 108, 108, 111], [45, 102, 102], [104, 101, 108, 108, 111]].map some ∧
    (stringAppend [exS0, exS1, exS0] exSH).2.strs.getLast? = some [104, 101, 108, 108, 111, 45, 102, 102, 104, 101, 108, 108, 111] := by decide

/-- C32: an argument that is not a string makes `string-append` a Scheme error; nothing changes. -/
theorem c32_append_error (h : Heap) (args : List Obj) (hstr : ∀ o ∈ args, ∀ a, o.v = .str a → a < h.strs.length)
    (hbad : ∃ o ∈ args, o.v.ty ≠ .str) : stringAppend args h = (.err .evalError, h) := by
  have : strAppendArgs args h = (.err .evalError, h) := by
    induction args with
    | nil => obtain ⟨o, ho, -⟩ := hbad; simp at ho
    | cons o os ih =>
      simp only [strAppendArgs]
      by_cases ho : o.v.ty = .str
      · obtain ⟨a, hv⟩ : ∃ a, o.v = .str a := by
          cases hv : o.v <;> rw [hv] at ho <;> simp [Val.ty] at ho
          exact ⟨_, rfl⟩
        have ha := hstr o (by simp) a hv
        rw [M.bind_ok (strOf_ok hv (List.getElem?_eq_getElem ha))]
        simp only
        refine M.bind_err (ih (fun o' ho' => hstr o' (by simp [ho'])) ?_)
        obtain ⟨o', ho', hb⟩ := hbad
        rcases List.mem_cons.1 ho' with rfl | hm
        · exact absurd ho hb
        · exact ⟨o', hm, hb⟩
      · exact M.bind_err (by
          unfold strOf
          cases hh : o.v <;> simp_all [Val.ty])
  exact M.bind_err this

example : ∃ o ∈ [exS0, exNum 3], o.v.ty ≠ .str := ⟨exNum 3, by decide⟩

theorem c32_length (h : Heap) (o : Obj) (a : Addr) (s : List UInt8) (hv : o.v = .str a) (hs : h.strs[a]? = some s) :
    ∃ h', stringLength o h = (.ok ⟨h.nextId, .num s.length⟩, h') ∧ Ext h h' :=
  ⟨{ h with nextId := h.nextId + 1 }, by simp only [stringLength]; rw [M.bind_ok (strOf_ok hv hs)]; rfl, ext_newId h _ (by omega)⟩

theorem strToListLoop_spec (s : List UInt8) : ∀ (k : Nat) (r : Option Addr) (h0 h : Heap) (ns : List (Addr × Node)),
    k ≤ s.length → Ext h0 h → Path h r ns → (∀ x ∈ ns, x.2.dotted = false) →
    ∃ q h' ms, strToListLoop s k r h = (.ok q, h') ∧ Ext h0 h' ∧ Path h' q ms ∧
      ms.map (·.2.data.v) = (s.take k).map Val.chr ++ ns.map (·.2.data.v) ∧ (∀ x ∈ ms, x.2.dotted = false)
  | 0, r, h0, h, ns, _, he, hp, hd => ⟨r, h, ns, rfl, he, hp, by simp, hd⟩
  | k + 1, r, h0, h, ns, hk, he, hp, hd => by
    have hget : s[k]? = some s[k] := by simp
    have e1 := ext_newId h (h.nextId + 1) (by omega)
    have hext := e1.trans (ext_push { h with nextId := h.nextId + 1 } ⟨⟨h.nextId, .chr s[k]⟩, r, false⟩)
    obtain ⟨q, h', ms, e, e2, p2, m2, d2⟩ := strToListLoop_spec s k (some h.nodes.length) h0
      { h with nodes := h.nodes ++ [(⟨⟨h.nextId, .chr s[k]⟩, r, false⟩ : Node)], nextId := h.nextId + 1 }
      ((h.nodes.length, ⟨⟨h.nextId, .chr s[k]⟩, r, false⟩) :: ns) (by omega)
      (he.trans hext) ⟨rfl, by simp, hp.mono hext⟩
      (by
        intro x hx
        rcases List.mem_cons.1 hx with rfl | hx
        · rfl
        · exact hd x hx)
    refine ⟨q, h', ms, ?_, e2, p2, ?_, d2⟩
    · simp only [strToListLoop, hget]
      rw [M.bind_ok (x := newObj _) (h := h) (h' := { h with nextId := h.nextId + 1 }) rfl]
      rw [M.bind_ok (x := allocNode _) (a := h.nodes.length) (h' := { h with nodes := h.nodes ++ [(⟨⟨h.nextId, .chr s[k]⟩, r, false⟩ : Node)], nextId := h.nextId + 1 }) rfl, e]
    · rw [m2, List.take_add_one, hget]
      simp only [List.map_cons, Option.toList, List.append_assoc, List.cons_append, List.nil_append, List.map_append, List.map_nil]

/-- C32: `string->list` returns a new proper list of the characters of the string; nothing existing changes. -/
theorem c32_string_to_list (h : Heap) (o : Obj) (a : Addr) (s : List UInt8) (hv : o.v = .str a) (hs : h.strs[a]? = some s) :
    ∃ r h' as xs, stringToList o h = (.ok r, h') ∧ ProperList h' r as xs ∧ xs.map (·.v) = s.map Val.chr ∧ Ext h h' := by
  simp only [stringToList]
  rw [M.bind_ok (strOf_ok hv hs)]
  simp only
  obtain ⟨q, h', ms, e, e2, p2, m2, d2⟩ := strToListLoop_spec s s.length none h h [] (Nat.le_refl _) (Ext.refl h) rfl (by simp)
  rw [M.bind_ok e]
  simp at m2
  have hm : (ms.map (·.2.data)).map (·.v) = s.map Val.chr := by rw [List.map_map]; exact m2
  cases q with
  | none => exact ⟨Obj.nil, h', ms.map (·.1), _, rfl, ⟨none, ms, rfl, p2, rfl, rfl, d2⟩, hm, e2⟩
  | some q =>
    have e3 := ext_newId h' (h'.nextId + 1) (by omega)
    exact ⟨⟨h'.nextId, .list q⟩, { h' with nextId := h'.nextId + 1 }, ms.map (·.1), _, rfl,
      ⟨some q, ms, rfl, p2.mono e3, rfl, rfl, d2⟩, hm, e2.trans e3⟩

example : exS0.v = .str 0 ∧ exSH.strs[0]? = some [104, 101, 108, 108, 111] := by decide

theorem chainChars_path {h : Heap} : ∀ {ns : List (Addr × Node)} {a fuel} {cs : List UInt8}, Path h (some a) ns → ns.length ≤ fuel →
    ns.map (·.2.data.v) = cs.map Val.chr → chainChars fuel a h = (.ok cs, h)
  | [], a, _, _, hp, _, _ => by simp [Path] at hp
  | (b, n) :: r, a, 0, _, _, hf, _ => by simp at hf
  | (b, n) :: r, a, fuel + 1, [], _, _, hc => by simp at hc
  | (b, n) :: r, a, fuel + 1, c :: cs, ⟨h1, h2, h3⟩, hf, hc => by
    cases h1
    simp only [List.map_cons, List.cons.injEq] at hc
    simp only [chainChars]
    rw [M.bind_ok (getNode_ok h2)]
    rw [M.bind_ok (x := M.lift _) (a := c) (h' := h) (by simp [charOf, hc.1])]
    cases hn : n.next with
    | none =>
      rw [hn] at h3
      cases r with
      | nil => have := hc.2; simp at this; subst this; rfl
      | cons y ys => exact absurd h3.1 (by simp)
    | some d =>
      rw [hn] at h3
      simp only
      rw [M.bind_ok (chainChars_path h3 (by simp at hf; omega) hc.2)]
      rfl

/-- C32: `list->string` of a list of characters is a new string with these bytes. Partial: fewer than `2^31 - 1` characters. -/
theorem c32_list_to_string_partial (h : Heap) (o : Obj) (as : List Addr) (xs : List Obj) (cs : List UInt8) (fuel : Nat)
    (hl : ProperList h o as xs) (hc : xs.map (·.v) = cs.map Val.chr) (hlen : xs.length < 2 ^ 31 - 1) (hf : xs.length < fuel) :
    ∃ h', listToString fuel o h = (.ok ⟨h.nextId, .str h.strs.length⟩, h') ∧ h'.strs = h.strs ++ [cs] ∧ h'.nodes = h.nodes ∧
      h'.vecs = h.vecs := by
  have hll : xs.length = cs.length := by have := congrArg List.length hc; simpa using this
  refine ⟨{ h with strs := h.strs ++ [cs], nextId := h.nextId + 1 }, ?_, rfl, rfl, rfl⟩
  rcases hl.cases with ⟨hv, -, rfl⟩ | ⟨a, ns, hv, hp, ha, hx, hd, hnl, -⟩
  · simp at hc; subst hc
    simp only [listToString, hv]; rfl
  · simp only [listToString, hv]
    rw [M.bind_ok (chainChars_path (cs := cs) hp (by omega) (by rw [← hc, ← hx, List.map_map]; rfl))]
    rw [M.bind_ok (x := M.lift _) (a := ((cs.length : Int) + 1)) (h' := h) (by
      simp only [M.lift_app, i32]; rw [if_pos (by omega)])]
    rfl

example : ProperList exSH ⟨81, .list 0⟩ [0, 1] [⟨70, .chr 97⟩, ⟨71, .chr 98⟩] ∧
    ([⟨70, .chr 97⟩, ⟨71, .chr 98⟩] : List Obj).map (·.v) = ([97, 98] : List UInt8).map Val.chr :=
  ⟨⟨some 0, [(0, ⟨⟨70, .chr 97⟩, some 1, false⟩), (1, ⟨⟨71, .chr 98⟩, none, false⟩)], rfl, ⟨rfl, rfl, rfl, rfl, rfl⟩, rfl, rfl, by decide⟩, by decide⟩

/-- C32: an element that is not a character makes `list->string` a Scheme error. -/
theorem c32_list_to_string_error (h : Heap) (o : Obj) (as : List Addr) (xs : List Obj) (fuel : Nat)
    (hl : ProperList h o as xs) (hbad : ∃ x ∈ xs, x.v.ty ≠ .chr) (hf : xs.length < fuel) :
    listToString fuel o h = (.err .evalError, h) := by
  have key : ∀ {ns : List (Addr × Node)} {a fuel}, Path h (some a) ns → ns.length ≤ fuel → (∃ x ∈ ns, x.2.data.v.ty ≠ .chr) →
      chainChars fuel a h = (.err .evalError, h) := by
    intro ns
    induction ns with
    | nil => intro a fuel _ _ hb; obtain ⟨x, hx, _⟩ := hb; simp at hx
    | cons y r ih =>
      obtain ⟨b, n⟩ := y
      rintro a fuel ⟨h1, h2, h3⟩ hf hb
      cases h1
      cases fuel with
      | zero => simp at hf
      | succ fuel =>
        simp only [chainChars]
        rw [M.bind_ok (getNode_ok h2)]
        by_cases hc : n.data.v.ty = .chr
        · obtain ⟨c, hcv⟩ : ∃ c, n.data.v = .chr c := by
            cases hv : n.data.v <;> rw [hv] at hc <;> simp [Val.ty] at hc
            exact ⟨_, rfl⟩
          rw [M.bind_ok (x := M.lift _) (a := c) (h' := h) (by simp [charOf, hcv])]
          have hb' : ∃ x ∈ r, x.2.data.v.ty ≠ .chr := by
            obtain ⟨x, hx, hxb⟩ := hb
            rcases List.mem_cons.1 hx with rfl | hx
            · exact absurd hc hxb
            · exact ⟨x, hx, hxb⟩
          cases hn : n.next with
          | none =>
            rw [hn] at h3
            cases r with
            | nil => obtain ⟨x, hx, _⟩ := hb'; simp at hx
            | cons y ys => exact absurd h3.1 (by simp)
          | some d =>
            rw [hn] at h3
            simp only
            exact M.bind_err (ih h3 (by simp at hf; omega) hb')
        · refine M.bind_err ?_
          simp only [M.lift_app, charOf]
          cases hv : n.data.v <;> simp_all [Val.ty]
  rcases hl.cases with ⟨hv, -, rfl⟩ | ⟨a, ns, hv, hp, ha, hx, hd, hnl, -⟩
  · obtain ⟨x, hx, _⟩ := hbad; simp at hx
  · simp only [listToString, hv]
    refine M.bind_err (key hp (by omega) ?_)
    obtain ⟨x, hxm, hxb⟩ := hbad
    rw [← hx] at hxm
    obtain ⟨y, hy, rfl⟩ := List.mem_map.1 hxm
    exact ⟨y, hy, hxb⟩

example : ∃ x ∈ [(⟨70, .chr 97⟩ : Obj), exNum 2], x.v.ty ≠ .chr := ⟨exNum 2, by decide⟩

/-- C32: the conversions are inverse, both ways (strings below `2^31 - 1` bytes). -/
theorem c32_inverse_partial (h : Heap) (o l : Obj) (a : Addr) (s cs : List UInt8) (as : List Addr) (xs : List Obj) (fuel : Nat)
    (hv : o.v = .str a) (hs : h.strs[a]? = some s) (hlen : s.length < 2 ^ 31 - 1) (hf : s.length < fuel)
    (hl : ProperList h l as xs) (hc : xs.map (·.v) = cs.map Val.chr) (hlen' : xs.length < 2 ^ 31 - 1) (hf' : xs.length < fuel) :
    (∃ r h1 r' h2, stringToList o h = (.ok r, h1) ∧ listToString fuel r h1 = (.ok r', h2) ∧
      r'.v = .str h1.strs.length ∧ h2.strs = h1.strs ++ [s]) ∧
    (∃ r h1 r' h2 as' ys, listToString fuel l h = (.ok r, h1) ∧ stringToList r h1 = (.ok r', h2) ∧
      ProperList h2 r' as' ys ∧ ys.map (·.v) = xs.map (·.v)) := by
  constructor
  · obtain ⟨r, h1, bs, ys, e1, pl, hy, -⟩ := c32_string_to_list h o a s hv hs
    have hyl : ys.length = s.length := by have := congrArg List.length hy; simpa using this
    obtain ⟨h2, e2, k2, -⟩ := c32_list_to_string_partial h1 r bs ys s fuel pl hy (by omega) (by omega)
    exact ⟨r, h1, _, h2, e1, e2, rfl, k2⟩
  · obtain ⟨h1, e1, k1, -⟩ := c32_list_to_string_partial h l as xs cs fuel hl hc hlen' hf'
    obtain ⟨r', h2, bs, ys, e2, pl, hy, -⟩ := c32_string_to_list h1 ⟨h.nextId, .str h.strs.length⟩ h.strs.length cs rfl (by rw [k1]; simp)
    exact ⟨_, h1, r', h2, bs, ys, e1, e2, pl, by rw [hy, hc]⟩

example : exS0.v = .str 0 ∧ 5 < 2 ^ 31 - 1 ∧ 5 < 100 := by decide

/-- C32: `(string c ...)` is a new string with these characters. -/
theorem c32_string (h : Heap) (args : List Obj) (cs : List UInt8) (hc : args.map (·.v) = cs.map Val.chr) :
    ∃ h', string args h = (.ok ⟨h.nextId, .str h.strs.length⟩, h') ∧ h'.strs = h.strs ++ [cs] ∧ h'.nodes = h.nodes := by
  have : charArgs args = .ok cs := by
    induction args generalizing cs with
    | nil => cases cs <;> simp_all [charArgs]
    | cons o os ih =>
      cases cs with
      | nil => simp at hc
      | cons c cs =>
        simp only [List.map_cons, List.cons.injEq] at hc
        simp [charArgs, charOf, hc.1, ih cs hc.2]
  refine ⟨{ h with strs := h.strs ++ [cs], nextId := h.nextId + 1 }, ?_, rfl, rfl⟩
  simp only [string, this]
  rfl

example : [(⟨70, .chr 97⟩ : Obj)].map (·.v) = ([97] : List UInt8).map Val.chr := by decide

end Pscm
