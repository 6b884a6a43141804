import Verif.AlistProps
import Verif.VectorProps
import Verif.StrProps
import Verif.StrProps2
/-! # More of C10, C24, C29, C31 and C35: ratios as text, `acons`, lengths, character classes -/
namespace Pscm
open Spec

/-! ## C10 — the text of a ratio -/

theorem decLoop_numeral : ∀ fuel n, n < fuel → ∃ ds : List Nat, ds ≠ [] ∧ (∀ d ∈ ds, d < 10) ∧ (ds.head? = some 0 → ds = [0] ∧ n = 0) ∧
    posValue 10 ds = n ∧ (decLoop fuel n).map some = ds.map (fun d => glyphs[d]?)
  | 0, n, h => by omega
  | fuel + 1, n, h => by
    have hg : ∀ d, d < 10 → some (48 + d).toUInt8 = glyphs[d]? := by
      rw [glyphs_eq]; decide
    unfold decLoop
    split
    · rename_i h10
      refine ⟨[n], by simp, by simpa using h10, by simp, by simp [posValue], ?_⟩
      simp only [List.map_cons, List.map_nil]
      rw [hg n h10]
    · rename_i h10
      obtain ⟨ds, h1, h2, h3, h4, h5⟩ := decLoop_numeral fuel (n / 10) (by omega)
      refine ⟨ds ++ [n % 10], by simp, ?_, ?_, ?_, ?_⟩
      · intro d hd
        rcases List.mem_append.1 hd with hd | hd
        · exact h2 d hd
        · simp at hd; omega
      · intro hh
        cases ds with
        | nil => exact absurd rfl h1
        | cons d0 ds0 =>
          have := (h3 (by simpa using hh)).2
          omega
      · rw [posValue_append, h4]; omega
      · rw [List.map_append, List.map_append, h5]
        simp only [List.map_cons, List.map_nil]
        rw [hg _ (Nat.mod_lt _ (by decide))]

theorem printLld_numeral (n : Int) : IsNumeral 10 n (printLld n) := by
  obtain ⟨ds, h1, h2, h3, h4, h5⟩ := decLoop_numeral (n.natAbs + 1) n.natAbs (by omega)
  refine ⟨ds, h1, h2, fun hh => (h3 hh).1, h4, ?_⟩
  unfold printLld printD
  rw [List.map_append, h5]
  congr 1
  by_cases hn : n < 0 <;> simp [hn]

theorem countDec_length : ∀ (k fuel : Nat) (n : Int), n.natAbs < 10 ^ k → n.natAbs < fuel → n ≠ 0 →
    (decLoop fuel n.natAbs).length = countDec k n
  | 0, _, n, h, _, h0 => by simp at h; omega
  | k + 1, 0, n, _, h, _ => by omega
  | k + 1, fuel + 1, n, h, hf, h0 => by
    unfold decLoop countDec
    rw [if_pos h0]
    have e : (n.tdiv 10).natAbs = n.natAbs / 10 := Int.natAbs_tdiv n 10
    split
    · rename_i h10
      have : n.tdiv 10 = 0 := by omega
      rw [this]
      cases k <;> simp [countDec]
    · rename_i h10
      have hlt : n.natAbs / 10 < 10 ^ k := by rw [Nat.pow_succ] at h; omega
      have := countDec_length k fuel (n.tdiv 10) (by rw [e]; exact hlt) (by omega) (by omega)
      rw [e] at this
      simp only [List.length_append, List.length_cons, List.length_nil, this]
      omega

/-- C10, ratios: `number->string` of the ratio `n/d` with radix 10 writes the decimal numeral of `n`, a slash and the decimal numeral of `d`
(nothing is cut off by the fixed-size buffer), for all 64-bit `n` and `d ≠ 0`; any other radix is an error. -/
theorem c10_ratio (T : FText) (h : Heap) (o : Obj) (rest : List Obj) (n d : Int) (r : Nat) (hv : o.v = .ratio n d)
    (hn : InI64 n) (hd : InI64 d) (hd0 : d ≠ 0) (hr : RadixArg rest r) :
    (r = 10 → ∃ s t h', numberToString T (o :: rest) h = (.ok ⟨h.nextId, .str h.strs.length⟩, h') ∧ h'.strs = h.strs ++ [s ++ [47] ++ t] ∧
      IsNumeral 10 n s ∧ IsNumeral 10 d t ∧ h'.nodes = h.nodes ∧ h'.vecs = h.vecs) ∧
    (r ≠ 10 → numberToString T (o :: rest) h = (.err .evalError, h)) := by
  constructor
  · intro h10
    refine ⟨_, _, { h with strs := h.strs ++ [printLld n ++ [47] ++ printLld d], nextId := h.nextId + 1 }, ?_, rfl, printLld_numeral n,
      printLld_numeral d, rfl, rfl⟩
    simp only [numberToString, hv]
    rw [M.bind_ok (x := M.lift _) (a := r) (h' := h) (by rw [radixArg_ok hr]; rfl), if_neg (by simpa using h10), newStr_run]
    have e : ratioToString n d = printLld n ++ [47] ++ printLld d := by
      unfold InI64 at hn hd
      unfold ratioToString
      apply List.take_of_length_le
      have hdl := countDec_length 20 (d.natAbs + 1) d (by omega) (by omega) hd0
      have hsg : ∀ m : Int, (if m < 0 then ([45] : List UInt8) else []).length = if m < 0 then 1 else 0 := by
        intro m; split <;> rfl
      simp only [List.length_append, List.length_cons, List.length_nil, printLld, printD, hdl, hsg]
      by_cases h0 : n = 0
      · subst h0
        have : (decLoop ((0 : Int).natAbs + 1) (0 : Int).natAbs).length = 1 := rfl
        simp only [this]
        simp only [Int.lt_irrefl, if_false, if_true]
        split <;> omega
      · have hnl := countDec_length 20 (n.natAbs + 1) n (by omega) (by omega) h0
        simp only [hnl, if_neg h0]
        split <;> split <;> omega
    rw [e]
  · intro h10
    simp only [numberToString, hv]
    rw [M.bind_ok (x := M.lift _) (a := r) (h' := h) (by rw [radixArg_ok hr]; rfl), if_pos h10]
    rfl

example : (⟨1, .ratio (-7) 12⟩ : Obj).v = .ratio (-7) 12 ∧ RadixArg [] 10 ∧ InI64 (-7) ∧
    (numberToString exT [⟨1, .ratio (-7) 12⟩] exSH).2.strs.getLast? = some [45, 55, 47, 49, 50] :=
  ⟨rfl, ⟨by decide, by decide, .inl ⟨rfl, rfl⟩⟩, by decide, by decide +kernel⟩

/-! ## C24 — `acons` -/

theorem Spec.OrdinaryCdr.of_proper {h : Heap} {o : Obj} {as xs} (hp : ProperList h o as xs) : OrdinaryCdr h o xs.length := by
  obtain ⟨p, ns, hs, hpath, -, hx, hnd⟩ := hp
  intro a hv
  rw [hv] at hs; cases hs
  refine ⟨ns, hpath, by rw [← hx]; simp, fun m hm => ?_⟩
  obtain ⟨n, r, rfl, hn, -⟩ := hpath.cases_some
  rw [hm] at hn; cases hn
  exact hnd (a, m) (by simp)

/-- C24: `(acons key value al)` is a new list whose first element is a new pair of `key` and `value` and whose other elements are those of
`al`; nothing existing is changed; `assq` of the key finds the new pair and `assq` of any other key gives what it gave before. -/
theorem c24_acons (h : Heap) (al key value : Obj) (as : List Addr) (xs : List Obj) (n fuel : Nat)
    (hl : ProperList h al as xs) (hx : EntriesExist h xs) (hv : OrdinaryCdr h value n) (hf : xs.length + n + 1 < fuel) :
    ∃ r h' as' p, acons fuel key value al h = (.ok r, h') ∧ Ext h h' ∧ ProperList h' r as' (p :: xs) ∧ PlainPairOf h' p key value ∧
      (∀ a, p.v = .list a → h.nodes.length ≤ a) ∧
      assq fuel key r h' = (.ok p, h') ∧
      (∀ key', ¬ SameKeyQ key' key → ∃ o, assq fuel key' al h = (.ok o, h) ∧ assq fuel key' r h' = (.ok o, h')) := by
  have hv' : OrdinaryCdr h value fuel := by
    intro a ha
    obtain ⟨ns, a1, a2, a3⟩ := hv a ha
    exact ⟨ns, a1, by omega, a3⟩
  obtain ⟨z, h1, e1, x1, zv, zl, zp⟩ := cons_pairOf (k := key) (fuel := fuel) (Ext.refl h) hv'
  have hmain : ∃ r h' as', acons fuel key value al h = (.ok r, h') ∧ Ext h1 h' ∧ ProperList h' r as' (z :: xs) := by
    obtain ⟨p, ns, hs, hp, has, hxx, hnd⟩ := hl
    have hlen : ns.length = xs.length := by rw [← hxx]; simp
    cases hav : al.v with
    | nil =>
      rw [hav] at hs; cases hs
      cases ns with
      | cons y ys => exact absurd hp.1 (by simp)
      | nil =>
        simp at hxx; subst hxx
        obtain ⟨b, h2, e2, i2⟩ := BInv.pushAll (h0 := h1) (ys := [z]) (BInv.empty h1)
        obtain ⟨o, h3, as3, e3, x3, pl, -⟩ := i2.1.finish
        refine ⟨o, h3, as3, ?_, x3, by simpa using pl⟩
        simp only [acons, hav]
        rw [M.bind_ok e1]
        simp only [list]
        rw [M.bind_ok e2, e3]
    | list a =>
      rw [hav] at hs; cases hs
      refine ⟨⟨h1.nextId, .list h1.nodes.length⟩, { h1 with nodes := h1.nodes ++ [⟨z, some a, false⟩], nextId := h1.nextId + 1 },
        h1.nodes.length :: ns.map (·.1), ?_, ext_push2 _ _ (h1.nextId + 1) (by omega), ?_⟩
      · simp only [acons, hav]
        rw [M.bind_ok e1, cons_list hav (hp.mono x1) (by omega)]
      · refine ⟨some h1.nodes.length, (h1.nodes.length, ⟨z, some a, false⟩) :: ns, rfl, ⟨rfl, by simp, ?_⟩, rfl, by simp [hxx], ?_⟩
        · exact (hp.mono x1).mono (ext_push2 h1 [⟨z, some a, false⟩] _ (by omega))
        · intro x hxm
          rcases List.mem_cons.1 hxm with rfl | hxm
          · rfl
          · exact hnd x hxm
    | _ => rw [hav] at hs; cases hs
  obtain ⟨r, h', as', e2, x2, pl⟩ := hmain
  have ex := x1.trans x2
  have hpair : PlainPairOf h' z key value := zp h' ex (fun a _ ha => x2.nodes a ha)
  have hraw' : RawList h' r as' (z :: xs) := by
    obtain ⟨p, ns, a, b, c, d, -⟩ := pl
    exact ⟨p, ns, a, b, c, d⟩
  have hraw : RawList h al as xs := by
    obtain ⟨p, ns, a, b, c, d, -⟩ := hl
    exact ⟨p, ns, a, b, c, d⟩
  have hzx : EntriesExist h' (z :: xs) := by
    intro e he a hea
    rcases List.mem_cons.1 he with rfl | he
    · rw [zv] at hea; cases hea
      have := x2.len; omega
    · have := hx e he a hea; have := ex.len; omega
  refine ⟨r, h', as', z, e2, ex, pl, hpair, ?_, ?_, ?_⟩
  · intro a ha; rw [zv] at ha; cases ha; omega
  · have := assG_raw (Ext.refl h') hraw' (assq_testOk (key := key) hzx) (fuel := fuel) (by simp; omega)
    have hm : matchE h' (assqEq key) z = true := matchE_iff.2 ⟨key, hpair.hasKey, by simp [assqEq]⟩
    simp only [List.find?_cons, hm, Option.getD_some] at this
    exact this
  · intro key' hne
    refine ⟨_, assG_raw (Ext.refl h) hraw (assq_testOk (key := key') hx) (by omega), ?_⟩
    have := assG_raw (Ext.refl h') hraw' (assq_testOk (key := key') hzx) (fuel := fuel) (by simp; omega)
    have hm : matchE h' (assqEq key') z = false := by
      rw [Bool.eq_false_iff]
      intro hm
      obtain ⟨k, hk1, hk2⟩ := matchE_iff.1 hm
      obtain rfl := hk1.det hpair.hasKey
      exact hne ((assqEq_iff _ _).1 hk2)
    simp only [List.find?_cons, hm] at this
    have hff : xs.find? (matchE h' (assqEq key')) = xs.find? (matchE h (assqEq key')) := by
      clear this pl hraw hraw' hzx hl hf e2
      induction xs with
      | nil => rfl
      | cons y ys ih =>
        simp only [List.find?_cons]
        rw [matchE_ext ex (hx y (by simp)), ih (fun e he => hx e (by simp [he]))]
    rw [hff] at this
    exact this

example : ProperList exH exL123 [0, 1, 2] [exNum 1, exNum 2, exNum 3] ∧ EntriesExist exH [exNum 1, exNum 2, exNum 3] ∧
    OrdinaryCdr exH (exNum 9) 0 ∧ (acons 20 (exNum 4) (exNum 9) exL123 exH).1 = .ok ⟨5001, .list 11⟩ := by
  refine ⟨exL123_proper, ?_, ?_, by decide⟩
  · intro e he a ha
    simp at he; rcases he with rfl | rfl | rfl <;> cases ha
  · intro a ha; cases ha

/-! ## C29 — `vector-length` -/

/-- C29: `vector-length` is the number of elements, of anything but a vector it is an error; an index is accepted by `vector-ref` exactly
when it is a non-negative number below it. -/
theorem c29_length (h : Heap) (o k : Obj) :
    (∀ a xs, o.v = .vec a → h.vecs[a]? = some xs →
      vectorLength o h = (.ok ⟨h.nextId, .num xs.length⟩, { h with nextId := h.nextId + 1 }) ∧
      ((∃ x, vectorRef o k h = (.ok x, h)) ↔ ∃ i : Nat, k.v = .num i ∧ i < xs.length)) ∧
    (o.v.ty ≠ .vector → vectorLength o h = (.err .evalError, h)) := by
  constructor
  · intro a xs hv hx
    refine ⟨?_, ?_⟩
    · simp only [vectorLength]
      rw [M.bind_ok (vecOf_ok hv hx)]; rfl
    · constructor
      · rintro ⟨x, hok⟩
        by_cases hb : ∃ i : Nat, k.v = .num i ∧ i < xs.length
        · exact hb
        · rw [(c29_ref h o k a xs hv hx).2 (fun i hi => by
            rcases Nat.lt_or_ge i xs.length with hlt | hge
            · exact absurd ⟨i, hi, hlt⟩ hb
            · exact hge)] at hok
          cases hok
      · rintro ⟨i, hi, hlt⟩
        exact ⟨xs[i], (c29_ref h o k a xs hv hx).1 i _ hi (List.getElem?_eq_getElem hlt)⟩
  · intro hv
    have : vecOf o h = (.err .evalError, h) := by
      cases hh : o.v <;> simp_all [vecOf, Val.ty]
    simp [vectorLength, M.bind_app, this]

example : (vectorLength exV0 exVH).1 = .ok ⟨5000, .num 3⟩ := by decide

/-! ## C31 — `string-length` -/

/-- C31: `string-length` is the number of bytes, of anything but a string it is an error; an index is accepted by `string-ref` exactly when it
is a non-negative number below it. -/
theorem c31_length (h : Heap) (o k : Obj) :
    (∀ a s, o.v = .str a → h.strs[a]? = some s →
      stringLength o h = (.ok ⟨h.nextId, .num s.length⟩, { h with nextId := h.nextId + 1 }) ∧
      ((∃ x h', stringRef o k h = (.ok x, h')) ↔ ∃ i : Nat, k.v = .num i ∧ i < s.length)) ∧
    (o.v.ty ≠ .str → stringLength o h = (.err .evalError, h)) := by
  constructor
  · intro a s hv hs
    refine ⟨?_, ?_⟩
    · have : strOf o h = (.ok (a, s), h) := by simp [strOf, hv, hs]
      simp only [stringLength]
      rw [M.bind_ok this]; rfl
    constructor
    · rintro ⟨x, h', hok⟩
      by_cases hb : ∃ i : Nat, k.v = .num i ∧ i < s.length
      · exact hb
      · rw [(c31_ref h o k a s hv hs).2 (fun i hi => by
          rcases Nat.lt_or_ge i s.length with hlt | hge
          · exact absurd ⟨i, hi, hlt⟩ hb
          · exact hge)] at hok
        cases hok
    · rintro ⟨i, hi, hlt⟩
      obtain ⟨h', e, -⟩ := (c31_ref h o k a s hv hs).1 i _ hi (List.getElem?_eq_getElem hlt)
      exact ⟨_, h', e⟩
  · intro hv
    have : strOf o h = (.err .evalError, h) := by
      cases hh : o.v <;> simp_all [strOf, Val.ty]
    simp [stringLength, M.bind_app, this]

example : (stringLength exS0 exSH).1 = .ok ⟨exSH.nextId, .num 5⟩ := by decide

/-! ## C35 — character classes -/

/-- C35: the character classes are those of ASCII: letters `A`–`Z`, `a`–`z`, digits `0`–`9`, white space space, tab, newline, vertical tab, form
feed and carriage return; no byte of 128 or more is in any class; applied to anything but a character, all five are errors. -/
theorem c35_classes (o : Obj) :
    (∀ c, o.v = .chr c →
      charNumeric o = .ok (decide (48 ≤ c.toNat ∧ c.toNat ≤ 57)) ∧
      charUpperCase o = .ok (decide (65 ≤ c.toNat ∧ c.toNat ≤ 90)) ∧
      charLowerCase o = .ok (decide (97 ≤ c.toNat ∧ c.toNat ≤ 122)) ∧
      charAlphabetic o = .ok (decide ((65 ≤ c.toNat ∧ c.toNat ≤ 90) ∨ (97 ≤ c.toNat ∧ c.toNat ≤ 122))) ∧
      charWhitespace o = .ok (decide (c.toNat = 32 ∨ (9 ≤ c.toNat ∧ c.toNat ≤ 13)))) ∧
    (o.v.ty ≠ .chr → charNumeric o = .err .evalError ∧ charUpperCase o = .err .evalError ∧ charLowerCase o = .err .evalError ∧
      charAlphabetic o = .err .evalError ∧ charWhitespace o = .err .evalError) := by
  have t1 : ∀ c, isDigit c = decide (48 ≤ c.toNat ∧ c.toNat ≤ 57) := forall_u8 (by decide +kernel)
  have t2 : ∀ c, isUpper c = decide (65 ≤ c.toNat ∧ c.toNat ≤ 90) := forall_u8 (by decide +kernel)
  have t3 : ∀ c, isLower c = decide (97 ≤ c.toNat ∧ c.toNat ≤ 122) := forall_u8 (by decide +kernel)
  have t4 : ∀ c, isAlpha c = decide ((65 ≤ c.toNat ∧ c.toNat ≤ 90) ∨ (97 ≤ c.toNat ∧ c.toNat ≤ 122)) := forall_u8 (by decide +kernel)
  have t5 : ∀ c, isSpace c = decide (c.toNat = 32 ∨ (9 ≤ c.toNat ∧ c.toNat ≤ 13)) := forall_u8 (by decide +kernel)
  constructor
  · intro c hv
    have hc : charOf o = .ok c := by simp [charOf, hv]
    rw [← t1, ← t2, ← t3, ← t4, ← t5]
    refine ⟨?_, ?_, ?_, ?_, ?_⟩ <;>
      simp only [charNumeric, charUpperCase, charLowerCase, charAlphabetic, charWhitespace, charClass, hc] <;> rfl
  · intro hv
    have hc : charOf o = .err .evalError := by cases hh : o.v <;> simp_all [charOf, Val.ty]
    refine ⟨?_, ?_, ?_, ?_, ?_⟩ <;>
      simp only [charNumeric, charUpperCase, charLowerCase, charAlphabetic, charWhitespace, charClass, hc] <;> rfl

example : (⟨1, .chr 53⟩ : Obj).v = .chr 53 ∧ charNumeric ⟨1, .chr 53⟩ = .ok true ∧ charWhitespace ⟨1, .chr 0xA0⟩ = .ok false := by decide

end Pscm
