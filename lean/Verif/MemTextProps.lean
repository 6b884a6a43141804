import Verif.MemTextLemmas
/-!
# C149: the builtins on characters and strings compute on data

As C148, for the functions of `string.cc`, `char.cc` and `symbol.cc`; then for programs that use both kinds of builtins.
-/
namespace Pscm
open Spec Mem

/-- The builtins. -/
def textBuiltins : List String :=
  ["char->integer", "integer->char", "char-upcase", "char-downcase", "char=?", "char<?", "char>?", "char<=?", "char>=?", "char-ci=?", "char-ci<?", "char-ci>?", "char-ci<=?", "char-ci>=?", "char-alphabetic?", "char-numeric?", "char-whitespace?", "char-upper-case?", "char-lower-case?", "symbol->string", "string->symbol", "string-length", "string-ref", "substring", "string-append", "string", "string->list", "list->string", "string=?", "string<?", "string>?", "string<=?", "string>=?", "number->string"]

namespace Mem

theorem ap_string_ref : Ref.stdAp "string-ref" = Ref.binary fun
    | .str s, .num k => Ref.onText s fun cs =>
      if k < 0 then .error else
      match cs[k.toNat]? with
      | some c => .val (.chr (Ref.byteOf c))
      | none => .error
    | _, _ => .error := rfl

theorem ap_substring : Ref.stdAp "substring" = Ref.ternary fun
    | .str s, .num i, .num j => Ref.onText s fun cs =>
      if 0 ≤ i ∧ i ≤ j ∧ j ≤ cs.length then .val (Ref.strOf ((cs.take j.toNat).drop i.toNat)) else .error
    | _, _, _ => .error := rfl

theorem ap_string_length : Ref.stdAp "string-length" = Ref.unary fun
    | .str s => Ref.onText s fun cs => .val (.num cs.length)
    | _ => .error := rfl

theorem ap_string_to_list : Ref.stdAp "string->list" = Ref.unary fun
    | .str s => Ref.onText s fun cs => .val (Ref.Val.list (cs.map fun c => .chr (Ref.byteOf c)))
    | _ => .error := rfl

theorem ap_list_to_string : Ref.stdAp "list->string" = Ref.unary fun v =>
    match v.elems with
    | some vs => Ref.spell vs
    | none => .unknown := rfl

theorem ap_stringeqP : Ref.stdAp "string=?" = Ref.binary fun
    | .str s, .str t => if Ref.NoNul s ∧ Ref.NoNul t then .val (.bool (decide (s = t))) else .unknown
    | _, _ => .error := rfl

theorem ap_string_to_symbol : Ref.stdAp "string->symbol" = Ref.unary fun
    | .str s => if Ref.NoNul s then .val (.sym s) else .unknown
    | _ => .error := rfl

theorem ap_integer_to_char : Ref.stdAp "integer->char" = Ref.unary fun
    | .num n => if 0 ≤ n ∧ n < 256 then .val (.chr (UInt8.ofNat n.toNat)) else .error
    | _ => .error := rfl

variable {h : Heap} {T : FText}

theorem charTest_two {r : Nat → Nat → Bool} {us : List Ref.Val} {v : Ref.Val} (hv : Ref.charTest r us = .val v) : ∃ u w, us = [u, w] := by
  obtain ⟨u, w, e, -⟩ := binary_val hv
  exact ⟨u, w, e⟩

theorem textTest_two {r : String → String → Bool} {us : List Ref.Val} {v : Ref.Val} (hv : Ref.textTest r us = .val v) : ∃ u w, us = [u, w] := by
  obtain ⟨u, w, e, -⟩ := binary_val hv
  exact ⟨u, w, e⟩

theorem charIs_one {r : Nat → Bool} {us : List Ref.Val} {v : Ref.Val} (hv : Ref.charIs r us = .val v) : ∃ u, us = [u] := by
  obtain ⟨u, e, -⟩ := unary_val hv
  exact ⟨u, e⟩

theorem byte_test (a b : UInt8) : decide (a.toNat = b.toNat) = (a == b) ∧ decide (a.toNat < b.toNat) = decide (a < b) ∧ decide (a.toNat > b.toNat) = decide (b < a) ∧
    decide (a.toNat ≤ b.toNat) = decide (a ≤ b) ∧ decide (a.toNat ≥ b.toNat) = decide (b ≤ a) := by
  refine ⟨?_, rfl, rfl, rfl, rfl⟩
  rw [Bool.eq_iff_iff, decide_eq_true_iff, beq_iff_eq]
  exact UInt8.toNat_inj

theorem nulFree_text {s : List UInt8} (hn : Ref.NoNul (textOf s)) : NulFree s := fun b hb h0 => noNul_text hn (h0 ▸ hb)

theorem number_val {us : List Ref.Val} {v : Ref.Val} (hv : Ref.stdAp "number->string" us = .val v) :
    ∃ n, us = [.num n] ∧ (if Ref.Word n ∧ Ref.Word (-n) then Ref.Ret.val (Ref.Val.str (toString n)) else .unknown) = .val v := by
  cases us with
  | nil => cases hv
  | cons u us =>
    cases us with
    | nil =>
      cases u with
      | num n => exact ⟨n, rfl, hv⟩
      | _ => cases hv
    | cons w us => cases u <;> cases hv

/-- The call of the builtin works. -/
def CallsK (T : FText) (h : Heap) (name : String) (args : List Obj) (v : Ref.Val) : Prop :=
  ∃ N, ∀ fuel, N ≤ fuel → ∃ m r h', textMem T fuel name args = some m ∧ m h = (.ok r, h') ∧ Holds h' r.v v ∧ Keeps h h'

theorem callsK {name : String} {args : List Obj} {m : Nat → M Obj} {v : Ref.Val} (hm : ∀ fuel, textMem T fuel name args = some (m fuel)) (w : WorksK h m v) : CallsK T h name args v := by
  obtain ⟨N, hN⟩ := w
  refine ⟨N, fun fuel hf => ?_⟩
  obtain ⟨r, h', e⟩ := hN fuel hf
  exact ⟨m fuel, r, h', hm fuel, e⟩

/-- The tables of the comparisons. -/
macro "order_done" : tactic => `(tactic| first
    | (rename_i s t; by_cases h : s < t
       · simp [h, Ref.string_asymm h]
       · by_cases h' : t < s <;> simp [h, h'])
    | (rename_i m n; rw [Nat.compare_eq_ite_lt]
       by_cases h : m < n
       · simp [h]; try omega
       · by_cases h' : n < m
         · simp [h, h']; try omega
         · simp [h, h']; try omega))

end Mem

/-- **C149** If the semantics of Scheme gives the call of a builtin on characters and strings the value `v`, the C function on objects that hold the data returns an object that holds
`v`; and everything that held a datum before holds it afterwards. -/
theorem c149_value_partial {h : Heap} (T : FText) {name : String} (hn : name ∈ textBuiltins) {args : List Obj} {us : List Ref.Val} (ha : HoldAll h args us) {v : Ref.Val}
    (hv : Ref.stdAp name us = .val v) :
    ∃ N, ∀ fuel, N ≤ fuel → ∃ m r h', textMem T fuel name args = some m ∧ m h = (.ok r, h') ∧ Holds h' r.v v ∧ ∀ w u, Holds h w u → Holds h' w u := by
  suffices hc : CallsK T h name args v by
    obtain ⟨N, hN⟩ := hc
    refine ⟨N, fun fuel hf => ?_⟩
    obtain ⟨m, r, h', e1, e2, e3, e4⟩ := hN fuel hf
    exact ⟨m, r, h', e1, e2, e3, fun w u hw => hw.keep e4⟩
  simp only [textBuiltins, List.mem_cons, List.not_mem_nil, or_false] at hn
  rcases hn with rfl | rfl | rfl | rfl | rfl | rfl | rfl | rfl | rfl | rfl | rfl | rfl | rfl | rfl | rfl | rfl | rfl | rfl | rfl | rfl | rfl | rfl | rfl | rfl | rfl | rfl | rfl | rfl | rfl | rfl | rfl | rfl | rfl | rfl
  · -- char->integer
    replace hv := unary_val hv
    obtain ⟨u, rfl, hv⟩ := hv
    obtain ⟨o, rfl, ho⟩ := hold1 ha
    cases u <;> cases hv
    rename_i c
    refine callsK (fun _ => rfl) (nowK (r := ⟨h.nextId, .num c.toNat⟩) (h' := { h with nextId := h.nextId + 1 }) ?_ (.num _ ?_) (keeps_ext (ext_newId h _ (by omega))))
    · simp [charToInteger, charOf, chr_cases ho, M.bind_app, M.lift]; rfl
    · have := c.toNat_lt; constructor <;> omega
  · -- integer->char
    rw [ap_integer_to_char] at hv
    replace hv := unary_val hv
    obtain ⟨u, rfl, hv⟩ := hv
    obtain ⟨o, rfl, ho⟩ := hold1 ha
    cases u with
    | num n =>
      simp only at hv
      split at hv
      · rename_i hn
        cases hv
        refine callsK (fun _ => rfl) (nowK (r := ⟨h.nextId, .chr n.toNat.toUInt8⟩) (h' := { h with nextId := h.nextId + 1 }) ?_ (.chr _) (keeps_ext (ext_newId h _ (by omega))))
        simp only [integerToChar]
        rw [M.bind_ok (x := M.lift _) (a := n) (h' := h) (by simp [numOf, num_cases ho, M.lift]), if_neg (by omega)]
        rfl
      · cases hv
    | _ => cases hv
  · -- char-upcase
    replace hv := unary_val hv
    obtain ⟨u, rfl, hv⟩ := hv
    obtain ⟨o, rfl, ho⟩ := hold1 ha
    cases u <;> cases hv
    rename_i c
    rw [Ref.upper_byte]
    refine callsK (fun _ => rfl) (nowK (r := ⟨h.nextId, .chr (toUpper c)⟩) (h' := { h with nextId := h.nextId + 1 }) ?_ (.chr _) (keeps_ext (ext_newId h _ (by omega))))
    simp [charUpcase, charOf, chr_cases ho, M.bind_app, M.lift]; rfl
  · -- char-downcase
    replace hv := unary_val hv
    obtain ⟨u, rfl, hv⟩ := hv
    obtain ⟨o, rfl, ho⟩ := hold1 ha
    cases u <;> cases hv
    rename_i c
    rw [Ref.lower_byte]
    refine callsK (fun _ => rfl) (nowK (r := ⟨h.nextId, .chr (toLower c)⟩) (h' := { h with nextId := h.nextId + 1 }) ?_ (.chr _) (keeps_ext (ext_newId h _ (by omega))))
    simp [charDowncase, charOf, chr_cases ho, M.bind_app, M.lift]; rfl
  · -- char=?
    replace hv : Ref.charTest (fun a b => decide (a = b)) us = .val v := hv
    obtain ⟨u, w, rfl⟩ := charTest_two hv
    obtain ⟨o, p, rfl, ho, hp⟩ := hold2 ha
    exact callsK (fun _ => rfl) (charTest_works (r := fun a b => decide (a = b)) (fun a b => byte_test a b |>.1) ho hp hv)
  · -- char<?
    replace hv : Ref.charTest (fun a b => decide (a < b)) us = .val v := hv
    obtain ⟨u, w, rfl⟩ := charTest_two hv
    obtain ⟨o, p, rfl, ho, hp⟩ := hold2 ha
    exact callsK (fun _ => rfl) (charTest_works (r := fun a b => decide (a < b)) (fun a b => byte_test a b |>.2.1) ho hp hv)
  · -- char>?
    replace hv : Ref.charTest (fun a b => decide (a > b)) us = .val v := hv
    obtain ⟨u, w, rfl⟩ := charTest_two hv
    obtain ⟨o, p, rfl, ho, hp⟩ := hold2 ha
    exact callsK (fun _ => rfl) (charTest_works (r := fun a b => decide (a > b)) (fun a b => byte_test a b |>.2.2.1) ho hp hv)
  · -- char<=?
    replace hv : Ref.charTest (fun a b => decide (a ≤ b)) us = .val v := hv
    obtain ⟨u, w, rfl⟩ := charTest_two hv
    obtain ⟨o, p, rfl, ho, hp⟩ := hold2 ha
    exact callsK (fun _ => rfl) (charTest_works (r := fun a b => decide (a ≤ b)) (fun a b => byte_test a b |>.2.2.2.1) ho hp hv)
  · -- char>=?
    replace hv : Ref.charTest (fun a b => decide (a ≥ b)) us = .val v := hv
    obtain ⟨u, w, rfl⟩ := charTest_two hv
    obtain ⟨o, p, rfl, ho, hp⟩ := hold2 ha
    exact callsK (fun _ => rfl) (charTest_works (r := fun a b => decide (a ≥ b)) (fun a b => byte_test a b |>.2.2.2.2) ho hp hv)
  · -- char-ci=?
    replace hv : Ref.charTest (fun a b => decide (Ref.upper a = Ref.upper b)) us = .val v := hv
    obtain ⟨u, w, rfl⟩ := charTest_two hv
    obtain ⟨o, p, rfl, ho, hp⟩ := hold2 ha
    exact callsK (fun _ => rfl) (charTest_works (r := fun a b => decide (Ref.upper a = Ref.upper b)) (fun a b => by simp only [Ref.upper_code]; exact (byte_test _ _).1) ho hp hv)
  · -- char-ci<?
    replace hv : Ref.charTest (fun a b => decide (Ref.upper a < Ref.upper b)) us = .val v := hv
    obtain ⟨u, w, rfl⟩ := charTest_two hv
    obtain ⟨o, p, rfl, ho, hp⟩ := hold2 ha
    exact callsK (fun _ => rfl) (charTest_works (r := fun a b => decide (Ref.upper a < Ref.upper b)) (fun a b => by simp only [Ref.upper_code]; exact (byte_test _ _).2.1) ho hp hv)
  · -- char-ci>?
    replace hv : Ref.charTest (fun a b => decide (Ref.upper a > Ref.upper b)) us = .val v := hv
    obtain ⟨u, w, rfl⟩ := charTest_two hv
    obtain ⟨o, p, rfl, ho, hp⟩ := hold2 ha
    exact callsK (fun _ => rfl) (charTest_works (r := fun a b => decide (Ref.upper a > Ref.upper b)) (fun a b => by simp only [Ref.upper_code]; exact (byte_test _ _).2.2.1) ho hp hv)
  · -- char-ci<=?
    replace hv : Ref.charTest (fun a b => decide (Ref.upper a ≤ Ref.upper b)) us = .val v := hv
    obtain ⟨u, w, rfl⟩ := charTest_two hv
    obtain ⟨o, p, rfl, ho, hp⟩ := hold2 ha
    exact callsK (fun _ => rfl) (charTest_works (r := fun a b => decide (Ref.upper a ≤ Ref.upper b)) (fun a b => by simp only [Ref.upper_code]; exact (byte_test _ _).2.2.2.1) ho hp hv)
  · -- char-ci>=?
    replace hv : Ref.charTest (fun a b => decide (Ref.upper a ≥ Ref.upper b)) us = .val v := hv
    obtain ⟨u, w, rfl⟩ := charTest_two hv
    obtain ⟨o, p, rfl, ho, hp⟩ := hold2 ha
    exact callsK (fun _ => rfl) (charTest_works (r := fun a b => decide (Ref.upper a ≥ Ref.upper b)) (fun a b => by simp only [Ref.upper_code]; exact (byte_test _ _).2.2.2.2) ho hp hv)
  · -- char-alphabetic?
    replace hv : Ref.charIs (fun c => decide (65 ≤ c ∧ c ≤ 90 ∨ 97 ≤ c ∧ c ≤ 122)) us = .val v := hv
    obtain ⟨u, rfl⟩ := charIs_one hv
    obtain ⟨o, rfl, ho⟩ := hold1 ha
    exact callsK (fun _ => rfl) (charIs_works (r := fun c => decide (65 ≤ c ∧ c ≤ 90 ∨ 97 ≤ c ∧ c ≤ 122)) (Ref.all_bytes (by decide +kernel)) ho hv)
  · -- char-numeric?
    replace hv : Ref.charIs (fun c => decide (48 ≤ c ∧ c ≤ 57)) us = .val v := hv
    obtain ⟨u, rfl⟩ := charIs_one hv
    obtain ⟨o, rfl, ho⟩ := hold1 ha
    exact callsK (fun _ => rfl) (charIs_works (r := fun c => decide (48 ≤ c ∧ c ≤ 57)) (Ref.all_bytes (by decide +kernel)) ho hv)
  · -- char-whitespace?
    replace hv : Ref.charIs (fun c => decide (9 ≤ c ∧ c ≤ 13 ∨ c = 32)) us = .val v := hv
    obtain ⟨u, rfl⟩ := charIs_one hv
    obtain ⟨o, rfl, ho⟩ := hold1 ha
    exact callsK (fun _ => rfl) (charIs_works (r := fun c => decide (9 ≤ c ∧ c ≤ 13 ∨ c = 32)) (Ref.all_bytes (by decide +kernel)) ho hv)
  · -- char-upper-case?
    replace hv : Ref.charIs (fun c => decide (65 ≤ c ∧ c ≤ 90)) us = .val v := hv
    obtain ⟨u, rfl⟩ := charIs_one hv
    obtain ⟨o, rfl, ho⟩ := hold1 ha
    exact callsK (fun _ => rfl) (charIs_works (r := fun c => decide (65 ≤ c ∧ c ≤ 90)) (Ref.all_bytes (by decide +kernel)) ho hv)
  · -- char-lower-case?
    replace hv : Ref.charIs (fun c => decide (97 ≤ c ∧ c ≤ 122)) us = .val v := hv
    obtain ⟨u, rfl⟩ := charIs_one hv
    obtain ⟨o, rfl, ho⟩ := hold1 ha
    exact callsK (fun _ => rfl) (charIs_works (r := fun c => decide (97 ≤ c ∧ c ≤ 122)) (Ref.all_bytes (by decide +kernel)) ho hv)
  · -- symbol->string
    replace hv := unary_val hv
    obtain ⟨u, rfl, hv⟩ := hv
    obtain ⟨o, rfl, ho⟩ := hold1 ha
    cases u <;> cases hv
    generalize hov : o.v = ov at ho
    cases ho with
    | sym s h0 hl =>
      obtain ⟨r, h', e, hr, hk⟩ := newStr_holds (h := h) s hl
      refine callsK (fun _ => rfl) (nowK (r := r) (h' := h') ?_ hr hk)
      simp only [symbolToString, hov]
      rw [M.bind_ok (x := M.lift _) (h' := h) (by rw [i32_len hl]; rfl)]
      exact e
  · -- string->symbol
    rw [ap_string_to_symbol] at hv
    replace hv := unary_val hv
    obtain ⟨u, rfl, hv⟩ := hv
    obtain ⟨o, rfl, ho⟩ := hold1 ha
    cases u with
    | str s =>
      simp only at hv
      split at hv
      · rename_i hn
        cases hv
        obtain ⟨a, bs, hov, rfl, hs, hl⟩ := str_cases ho
        refine callsK (fun _ => rfl) (nowK (r := ⟨h.nextId, .sym bs⟩) (h' := { h with nextId := h.nextId + 1 }) ?_ (.sym bs (noNul_text hn) hl) (keeps_ext (ext_newId h _ (by omega))))
        simp only [stringToSymbol, createSym]
        rw [M.bind_ok (strOf_ok hov hs), M.bind_ok (x := M.lift _) (h' := h) (by rw [i32_len hl]; rfl)]
        rfl
      · cases hv
    | _ => cases hv
  · -- string-length
    rw [ap_string_length] at hv
    replace hv := unary_val hv
    obtain ⟨u, rfl, hv⟩ := hv
    obtain ⟨o, rfl, ho⟩ := hold1 ha
    cases u with
    | str s =>
      obtain ⟨a, bs, hov, rfl, hs, hl⟩ := str_cases ho
      simp only [Ref.onText, text_toList, List.length_map] at hv
      split at hv
      · cases hv
        obtain ⟨h', e, he⟩ := c32_length h o a bs hov hs
        exact callsK (fun _ => rfl) (nowK e (.num _ (by constructor <;> omega)) (keeps_ext he))
      · cases hv
    | _ => cases hv
  · -- string-ref
    rw [ap_string_ref] at hv
    replace hv := binary_val hv
    obtain ⟨u, w, rfl, hv⟩ := hv
    obtain ⟨o, p, rfl, ho, hp⟩ := hold2 ha
    cases u with
    | str s =>
      cases w with
      | num k =>
        obtain ⟨a, bs, hov, rfl, hs, hl⟩ := str_cases ho
        simp only [Ref.onText, text_toList] at hv
        split at hv
        · split at hv
          · cases hv
          · rename_i hk
            rw [List.getElem?_map] at hv
            cases hg : bs[k.toNat]? with
            | none => rw [hg] at hv; cases hv
            | some c =>
              rw [hg] at hv
              cases hv
              rw [byteOf_charOf]
              obtain ⟨h', e, he⟩ := (c31_ref h o p a bs hov hs).1 k.toNat c (by rw [num_cases hp]; congr; omega) hg
              exact callsK (fun _ => rfl) (nowK e (.chr c) (keeps_ext he))
        · cases hv
      | _ => cases hv
    | _ => cases hv
  · -- substring
    rw [ap_substring] at hv
    replace hv := ternary_val hv
    obtain ⟨u, w, x, rfl, hv⟩ := hv
    obtain ⟨o, p, q, rfl, ho, hp, hq⟩ := hold3 ha
    cases u with
    | str s =>
      cases w with
      | num i =>
        cases x with
        | num j =>
          obtain ⟨a, bs, hov, rfl, hs, hl⟩ := str_cases ho
          simp only [Ref.onText, text_toList] at hv
          split at hv
          · split at hv
            · rename_i hij
              simp only [List.length_map] at hij
              cases hv
              rw [← List.map_take, ← List.map_drop, strOf_text]
              obtain ⟨r, h', e, hr, hk⟩ := newStr_holds (h := h) ((bs.take j.toNat).drop i.toNat) (by simp; omega)
              refine callsK (fun _ => rfl) (nowK (r := r) (h' := h') ?_ hr hk)
              simp only [substring]
              rw [M.bind_ok (strOf_ok hov hs)]
              simp only
              rw [M.bind_ok (x := M.lift _) (a := i) (h' := h) (by simp [numOf, num_cases hp, M.lift]),
                M.bind_ok (x := M.lift _) (a := j) (h' := h) (by simp [numOf, num_cases hq, M.lift]), if_neg (by omega), if_neg (by omega)]
              rw [show (j - i).toNat = j.toNat - i.toNat by omega, ← List.drop_take]
              exact e
            · cases hv
          · cases hv
        | _ => cases hv
      | _ => cases hv
    | _ => cases hv
  · -- string-append
    replace hv : Ref.joined [] us = .val v := hv
    obtain ⟨ss, e1, rfl, e3⟩ := joined_of ha (by simp) hv
    obtain ⟨h', e, k1, k2, -, -⟩ := c32_append_partial h args ss e1 (by simpa using e3)
    refine callsK (fun _ => rfl) (nowK e ?_ (keeps_strs k1 k2))
    exact .str _ ss.flatten (by rw [k1]; simp) (by simpa using e3)
  · -- string
    replace hv : Ref.spell us = .val v := hv
    unfold Ref.spell at hv
    split at hv
    · rename_i hl
      cases hc : Ref.chars us with
      | none => rw [hc] at hv; cases hv
      | some cs =>
        rw [hc] at hv
        cases hv
        obtain ⟨bs, e1, rfl⟩ := chars_of ha hc
        obtain ⟨h', e, k1, k2⟩ := c32_string h args bs e1
        refine callsK (fun _ => rfl) (nowK e ?_ (keeps_strs k1 k2))
        have h2 := ha.length
        have h3 : args.length = bs.length := by simpa using congrArg List.length e1
        exact .str _ bs (by rw [k1]; simp) (by omega)
    · cases hv
  · -- string->list
    rw [ap_string_to_list] at hv
    replace hv := unary_val hv
    obtain ⟨u, rfl, hv⟩ := hv
    obtain ⟨o, rfl, ho⟩ := hold1 ha
    cases u with
    | str s =>
      obtain ⟨a, bs, hov, rfl, hs, hl⟩ := str_cases ho
      simp only [Ref.onText, text_toList] at hv
      split at hv
      · cases hv
        obtain ⟨r, h', as, xs, e, hp, hx, he⟩ := c32_string_to_list h o a bs hov hs
        refine callsK (fun _ => rfl) (nowK e (holds_proper hp ?_) (keeps_ext he))
        clear hp e hs hl ho ha hov
        rename_i hfit
        clear hfit
        simp only [List.map_map]
        induction bs generalizing xs with
        | nil => cases xs with
          | nil => exact .nil
          | cons _ _ => cases hx
        | cons b bs ih => cases xs with
          | nil => cases hx
          | cons x xs =>
            simp only [List.map_cons, List.cons.injEq] at hx
            refine .cons ?_ (ih xs hx.2)
            rw [hx.1]
            simp only [Function.comp, byteOf_charOf]
            exact .chr b
      · cases hv
    | _ => cases hv
  · -- list->string
    rw [ap_list_to_string] at hv
    replace hv := unary_val hv
    obtain ⟨u, rfl, hv⟩ := hv
    obtain ⟨o, rfl, ho⟩ := hold1 ha
    cases he : u.elems with
    | none => simp [he] at hv
    | some vs =>
      simp only [he] at hv
      obtain ⟨as, xs, hp, hall⟩ := proper_of ho he
      unfold Ref.spell at hv
      split at hv
      · rename_i hl
        cases hc : Ref.chars vs with
        | none => rw [hc] at hv; cases hv
        | some cs =>
          rw [hc] at hv
          cases hv
          obtain ⟨bs, e1, rfl⟩ := chars_of hall hc
          have hll := hall.length
          have hbl : xs.length = bs.length := by simpa using congrArg List.length e1
          refine callsK (fun _ => rfl) ⟨xs.length + 1, fun fuel hf => ?_⟩
          obtain ⟨h', e, k1, k2, -⟩ := c32_list_to_string_partial h o as xs bs fuel hp e1 (by omega) (by omega)
          exact ⟨_, h', e, .str _ bs (by rw [k1]; simp) (by omega), keeps_strs k1 k2⟩
      · cases hv
  · -- string=?
    rw [ap_stringeqP] at hv
    replace hv := binary_val hv
    obtain ⟨u, w, rfl, hv⟩ := hv
    obtain ⟨o, p, rfl, ho, hp⟩ := hold2 ha
    cases u with
    | str s =>
      cases w with
      | str t =>
        simp only at hv
        split at hv
        · rename_i hn
          cases hv
          obtain ⟨a, bs, hov, rfl, hs, hl⟩ := str_cases ho
          obtain ⟨b, cs, hpv, rfl, ht, hl'⟩ := str_cases hp
          have hlex := (c33_lexicographic h o p bs cs ⟨a, hov, hs⟩ ⟨b, hpv, ht⟩ (nulFree_text hn.1) (nulFree_text hn.2)).2
          have hrun := stringEq_run hov hs hpv ht
          refine callsK (fun _ => rfl) (nowK (r := Obj.ofBool (decide (textOf bs = textOf cs))) (h' := h) ?_ (by cases decide (textOf bs = textOf cs) <;> exact .bool _) (.refl h))
          simp only [answer]
          rw [M.bind_ok hrun]
          rw [hrun] at hlex
          have : (cmpFull bs cs == Ordering.eq) = decide (textOf bs = textOf cs) := by
            rw [Bool.eq_iff_iff, decide_eq_true_iff, textOf_inj, ← hlex]
            simp
          rw [this]; rfl
        · cases hv
      | _ => cases hv
    | _ => cases hv
  · -- string<?
    replace hv : Ref.textTest (fun s t => decide (s < t)) us = .val v := hv
    obtain ⟨u, w, rfl⟩ := textTest_two hv
    obtain ⟨o, p, rfl, ho, hp⟩ := hold2 ha
    refine callsK (fun _ => rfl) (textTest_works (r := fun s t => decide (s < t)) (lt := true) (gt := false) (eq := fun a b => decide (a < b)) (fun s t => ?_) (fun m n => ?_) ho hp hv)
    all_goals order_done
  · -- string>?
    replace hv : Ref.textTest (fun s t => decide (t < s)) us = .val v := hv
    obtain ⟨u, w, rfl⟩ := textTest_two hv
    obtain ⟨o, p, rfl, ho, hp⟩ := hold2 ha
    refine callsK (fun _ => rfl) (textTest_works (r := fun s t => decide (t < s)) (lt := false) (gt := true) (eq := fun a b => decide (b < a)) (fun s t => ?_) (fun m n => ?_) ho hp hv)
    all_goals order_done
  · -- string<=?
    replace hv : Ref.textTest (fun s t => decide (¬ t < s)) us = .val v := hv
    obtain ⟨u, w, rfl⟩ := textTest_two hv
    obtain ⟨o, p, rfl, ho, hp⟩ := hold2 ha
    refine callsK (fun _ => rfl) (textTest_works (r := fun s t => decide (¬ t < s)) (lt := true) (gt := false) (eq := fun a b => decide (a ≤ b)) (fun s t => ?_) (fun m n => ?_) ho hp hv)
    all_goals order_done
  · -- string>=?
    replace hv : Ref.textTest (fun s t => decide (¬ s < t)) us = .val v := hv
    obtain ⟨u, w, rfl⟩ := textTest_two hv
    obtain ⟨o, p, rfl, ho, hp⟩ := hold2 ha
    refine callsK (fun _ => rfl) (textTest_works (r := fun s t => decide (¬ s < t)) (lt := false) (gt := true) (eq := fun a b => decide (b ≤ a)) (fun s t => ?_) (fun m n => ?_) ho hp hv)
    all_goals order_done
  · -- number->string
    replace hv := number_val hv
    obtain ⟨n, rfl, hv⟩ := hv
    · obtain ⟨o, rfl, ho⟩ := hold1 ha
      split at hv
      · rename_i hn
        cases hv
        obtain ⟨bs, e1, e2, e3⟩ := number_bytes hn
        obtain ⟨r, h', e, hr, hk⟩ := newStr_holds (h := h) bs e3
        rw [e2] at hr
        refine callsK (fun _ => rfl) (nowK (r := r) (h' := h') ?_ hr hk)
        simp only [numberToString, num_cases ho]
        rw [M.bind_ok (x := M.lift (radixArg [])) (a := 10) (h' := h) rfl, M.bind_ok (x := M.lift _) (a := bs) (h' := h) (by rw [e1]; rfl)]
        exact e
      · cases hv

/-! ## Programs -/

namespace Mem

theorem memCall_list {F : FArith} {fuel : Nat} {name : String} (hn : name ∈ textBuiltins) (args : List Obj) : memCall F fuel name args = none := by
  simp only [textBuiltins, List.mem_cons, List.not_mem_nil, or_false] at hn
  rcases hn with rfl | rfl | rfl | rfl | rfl | rfl | rfl | rfl | rfl | rfl | rfl | rfl | rfl | rfl | rfl | rfl | rfl | rfl | rfl | rfl | rfl | rfl | rfl | rfl | rfl | rfl | rfl | rfl | rfl | rfl | rfl | rfl | rfl | rfl <;>
    rcases args with _ | ⟨a, _ | ⟨b, _ | ⟨c, _ | ⟨d, r⟩⟩⟩⟩ <;> rfl

end Mem

/-- **C149** A program of calls of all these builtins: if the semantics gives it results, the C functions called one after the other give objects that hold them, and everything that held a datum before holds it afterwards. -/
theorem c149_program_partial (F : FArith) (T : FText) : ∀ {ls : Lines} {h : Heap} {os : List Obj} {us vs : List Ref.Val}, (∀ l ∈ ls, l.1 ∈ listBuiltins ∨ l.1 ∈ textBuiltins) →
    HoldAll h os us → meaning ls us = .val vs → ∃ os' h', LinesRun (dataMem F T) ls os h os' h' ∧ HoldAll h' os' vs ∧ ∀ w u, Holds h w u → Holds h' w u := by
  intro ls
  induction ls with
  | nil =>
    intro h os us vs _ ho hm
    cases hm
    exact ⟨os, h, .done, ho, fun _ _ hw => hw⟩
  | cons l ls ih =>
    intro h os us vs hls ho hm
    obtain ⟨f, is⟩ := l
    simp only [meaning] at hm
    cases hp : picks us is with
    | none => simp [hp] at hm
    | some ws =>
      simp only [hp] at hm
      obtain ⟨as, ha1, ha2⟩ := Mem.picks_hold ho hp
      cases hf : Ref.stdAp f ws with
      | error => simp [hf] at hm
      | unknown => simp [hf] at hm
      | val v =>
        simp only [hf] at hm
        have hone : ∃ fuel m r h1, dataMem F T fuel f as = some m ∧ m h = (.ok r, h1) ∧ Holds h1 r.v v ∧ ∀ w u, Holds h w u → Holds h1 w u := by
          rcases hls (f, is) (List.mem_cons_self ..) with hl | hl
          · obtain ⟨N, hN⟩ := c148_value_partial F hl ha2 hf
            obtain ⟨m, r, h1, e1, e2, hr, hk⟩ := hN N (Nat.le_refl N)
            exact ⟨N, m, r, h1, by simp [dataMem, e1], e2, hr, hk⟩
          · obtain ⟨N, hN⟩ := c149_value_partial T hl ha2 hf
            obtain ⟨m, r, h1, e1, e2, hr, hk⟩ := hN N (Nat.le_refl N)
            exact ⟨N, m, r, h1, by simp [dataMem, Mem.memCall_list hl, e1], e2, hr, hk⟩
        obtain ⟨fuel, m, r, h1, e1, e2, hr, hk⟩ := hone
        have hos : HoldAll h1 os us := by
          clear hm hp ha1 ha2 ih hls
          induction ho with
          | nil => exact .nil
          | cons hx _ ih => exact .cons (hk _ _ hx) ih
        obtain ⟨os', h', hrun, hh, hk'⟩ := ih (fun l hl => hls l (by simp [hl])) (hos.append (.cons hr .nil)) hm
        exact ⟨os', h', .line ha1 e1 e2 hrun, hh, fun w u hw => hk' w u (hk w u hw)⟩

/-! ## Cases -/

/-- `(list->string (reverse (string->list (string-append s t))))` and more, with the data `"a"` and `x` of `demoHeap`. -/
example : meaning [("symbol->string", [1]), ("string-append", [0, 2]), ("string->list", [3]), ("reverse", [4]), ("list->string", [5]), ("string<?", [3, 6]), ("car", [4]), ("char-upcase", [8]),
      ("string->symbol", [6]), ("string-length", [6])] [.str "a", .sym "x"] = .val
    [.str "a", .sym "x", .str "x", .str "ax", .pair (.chr 97) (.pair (.chr 120) .nil), .pair (.chr 120) (.pair (.chr 97) .nil), .str "xa", .bool true, .chr 97, .chr 65, .sym "xa", .num 2] := by
  with_unfolding_all rfl

example : HoldAll Mem.demoHeap [⟨10, .str 0⟩, ⟨11, .sym [120]⟩] [.str "a", .sym "x"] :=
  .cons (.str 0 [97] rfl (by decide)) (.cons (.sym [120] (by decide) (by decide)) .nil)

example : Ref.stdAp "substring" [.str "scheme", .num 1, .num 4] = .val (.str "che") ∧ Ref.stdAp "number->string" [.num (-42)] = .val (.str "-42") := by
  constructor <;> with_unfolding_all rfl

end Pscm
