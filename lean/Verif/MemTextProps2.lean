import Verif.MemTextProps
/-!
# C149, errors: a call of a builtin on characters and strings that is an error
-/
namespace Pscm
open Spec Mem

namespace Mem
variable {h : Heap} {T : FText}

theorem count1 {name : String} {args : List Obj} {us : List Ref.Val} (ha : HoldAll h args us) (h0 : textMem T 0 name [] = none) (h2 : ∀ a b r, textMem T 0 name (a :: b :: r) = none)
    (hne : textMem T 0 name args ≠ none) : us.length = 1 := by
  rw [← ha.length]
  match args, hne with
  | [], hne => exact absurd h0 hne
  | [_], _ => rfl
  | a :: b :: r, hne => exact absurd (h2 a b r) hne

theorem count2 {name : String} {args : List Obj} {us : List Ref.Val} (ha : HoldAll h args us) (h0 : textMem T 0 name [] = none) (h1 : ∀ a, textMem T 0 name [a] = none)
    (h3 : ∀ a b c r, textMem T 0 name (a :: b :: c :: r) = none) (hne : textMem T 0 name args ≠ none) : us.length = 2 := by
  rw [← ha.length]
  match args, hne with
  | [], hne => exact absurd h0 hne
  | [a], hne => exact absurd (h1 a) hne
  | [_, _], _ => rfl
  | a :: b :: c :: r, hne => exact absurd (h3 a b c r) hne

theorem count3 {name : String} {args : List Obj} {us : List Ref.Val} (ha : HoldAll h args us) (h0 : textMem T 0 name [] = none) (h1 : ∀ a, textMem T 0 name [a] = none)
    (h2 : ∀ a b, textMem T 0 name [a, b] = none) (h4 : ∀ a b c d r, textMem T 0 name (a :: b :: c :: d :: r) = none) (hne : textMem T 0 name args ≠ none) : us.length = 3 := by
  rw [← ha.length]
  match args, hne with
  | [], hne => exact absurd h0 hne
  | [a], hne => exact absurd (h1 a) hne
  | [a, b], hne => exact absurd (h2 a b) hne
  | [_, _, _], _ => rfl
  | a :: b :: c :: d :: r, hne => exact absurd (h4 a b c d r) hne

/-- The call of the builtin is an error and leaves the heap as it is. -/
def ErrsK (T : FText) (h : Heap) (name : String) (args : List Obj) : Prop :=
  ∃ m : Nat → M Obj, (∀ fuel, textMem T fuel name args = some (m fuel)) ∧ ∃ N, ∀ fuel, N ≤ fuel → m fuel h = (.err .evalError, h)

theorem errsK {name : String} {args : List Obj} {m : M Obj} (hm : ∀ fuel, textMem T fuel name args = some m) (e : m h = (.err .evalError, h)) : ErrsK T h name args :=
  ⟨fun _ => m, hm, 0, fun _ _ => e⟩

theorem strOf_err {o : Obj} {u : Ref.Val} (ho : Holds h o.v u) (hu : ∀ s, u ≠ .str s) : Pscm.strOf o h = (.err .evalError, h) := by
  unfold Pscm.strOf
  generalize o.v = v at ho
  cases ho <;> first | rfl | exact absurd rfl (hu _)

theorem charOf_err {o : Obj} {u : Ref.Val} (ho : Holds h o.v u) (hu : ∀ s, u ≠ .chr s) : Pscm.charOf o = .err .evalError := by
  unfold Pscm.charOf
  generalize o.v = v at ho
  cases ho <;> first | rfl | exact absurd rfl (hu _)

theorem numOf_err {o : Obj} {u : Ref.Val} (ho : Holds h o.v u) (hu : ∀ s, u ≠ .num s) : Pscm.numOf o = .err .evalError := by
  unfold Pscm.numOf
  generalize o.v = v at ho
  cases ho <;> first | rfl | exact absurd rfl (hu _)

theorem charTest_err {x y : Obj} {u w : Ref.Val} {r : Nat → Nat → Bool} {p : UInt8 → UInt8 → Bool} (hx : Holds h x.v u) (hy : Holds h y.v w)
    (hv : Ref.charTest r [u, w] = .error) : charAnswer (charCmp p x y) h = (.err .evalError, h) := by
  by_cases hu : ∃ c, u = .chr c
  · obtain ⟨c, rfl⟩ := hu
    have hc := charOf_err hy fun d hd => by subst hd; cases hv
    simp [charAnswer, answer, charCmp, Pscm.charOf, chr_cases hx, M.bind_app, M.lift] at hc ⊢
    simp [hc]
  · have hc := charOf_err hx fun d hd => hu ⟨d, hd⟩
    simp [charAnswer, answer, charCmp, hc, M.bind_app, M.lift]

theorem charIs_err {x : Obj} {u : Ref.Val} {r : Nat → Bool} {p : UInt8 → Bool} (hx : Holds h x.v u)
    (hv : Ref.charIs r [u] = .error) : charAnswer (charClass p x) h = (.err .evalError, h) := by
  have hc := charOf_err hx fun d hd => by subst hd; cases hv
  simp [charAnswer, answer, charClass, hc, M.bind_app, M.lift]

theorem answer_err {t : M Bool} (e : t h = (.err .evalError, h)) : answer t h = (.err .evalError, h) := M.bind_err e

theorem two_err {α : Type} {x y : Obj} {u w : Ref.Val} (hx : Holds h x.v u) (hy : Holds h y.v w) (hv : ∀ s t, u = .str s → w = .str t → False)
    (f : Addr × List UInt8 → Addr × List UInt8 → M α) : (Pscm.strOf x >>= fun s => Pscm.strOf y >>= fun t => f s t) h = (.err .evalError, h) := by
  by_cases hu : ∃ s, u = .str s
  · obtain ⟨s, rfl⟩ := hu
    obtain ⟨a, bs, hov, rfl, hs, -⟩ := str_cases hx
    rw [M.bind_ok (strOf_ok hov hs)]
    exact M.bind_err (strOf_err hy fun t ht => hv _ _ rfl ht)
  · exact M.bind_err (strOf_err hx fun t ht => hu ⟨t, ht⟩)

theorem textTest_err {x y : Obj} {u w : Ref.Val} {r : String → String → Bool} {lt gt : Bool} {eq : Nat → Nat → Bool} (hx : Holds h x.v u) (hy : Holds h y.v w)
    (hv : Ref.textTest r [u, w] = .error) : answer (stringCmp lt gt eq x y) h = (.err .evalError, h) := by
  refine answer_err ?_
  unfold stringCmp
  refine two_err hx hy (fun s t e1 e2 => ?_) _
  subst e1; subst e2
  simp only [Ref.textTest, Ref.binary] at hv
  split at hv <;> cases hv

theorem spell_err {us : List Ref.Val} (hv : Ref.spell us = .error) : Ref.chars us = none := by
  unfold Ref.spell at hv
  split at hv
  · cases hc : Ref.chars us with
    | none => rfl
    | some cs => rw [hc] at hv; cases hv
  · cases hv

theorem chars_err {os : List Obj} {us : List Ref.Val} (ho : HoldAll h os us) : Ref.chars us = none → ∃ x ∈ os, x.v.ty ≠ .chr := by
  induction ho with
  | nil => intro hc; cases hc
  | @cons o u os us hu _ ih =>
    intro hc
    cases u with
    | chr c =>
      simp only [Ref.chars, Option.map_eq_none_iff] at hc
      obtain ⟨x, hx, ht⟩ := ih hc
      exact ⟨x, by simp [hx], ht⟩
    | _ =>
      refine ⟨o, by simp, ?_⟩
      generalize o.v = ov at hu
      cases hu <;> (intro ht; cases ht)

theorem charArgs_err : ∀ {os : List Obj}, (∃ x ∈ os, x.v.ty ≠ .chr) → charArgs os = .err .evalError
  | [], hx => by obtain ⟨x, hx, -⟩ := hx; cases hx
  | o :: os, hx => by
    unfold charArgs
    by_cases ho : ∃ c, o.v = .chr c
    · obtain ⟨c, hc⟩ := ho
      have : charArgs os = .err .evalError := by
        refine charArgs_err ?_
        obtain ⟨x, hx, ht⟩ := hx
        rcases List.mem_cons.1 hx with rfl | hx
        · rw [hc] at ht; exact absurd rfl ht
        · exact ⟨x, hx, ht⟩
      simp [Pscm.charOf, hc, this]
    · have : Pscm.charOf o = .err .evalError := by
        unfold Pscm.charOf
        split
        · rename_i c hc; exact absurd ⟨c, hc⟩ ho
        · rfl
      simp [this]

theorem strs_in {os : List Obj} {us : List Ref.Val} (ho : HoldAll h os us) : ∀ o ∈ os, ∀ a, o.v = .str a → a < h.strs.length := by
  induction ho with
  | nil => intro o ho; cases ho
  | @cons o u os us hu _ ih =>
    intro x hx a ha
    rcases List.mem_cons.1 hx with rfl | hx
    · rw [ha] at hu
      cases hu with
      | str _ s hs _ => exact getElem?_lt hs
    · exact ih x hx a ha

theorem joined_err {os : List Obj} {us : List Ref.Val} (ho : HoldAll h os us) : ∀ {acc : List Char}, Ref.joined acc us = .error → ∃ x ∈ os, x.v.ty ≠ .str := by
  induction ho with
  | nil => intro acc hc; cases hc
  | @cons o u os us hu _ ih =>
    intro acc hc
    cases u with
    | str s =>
      simp only [Ref.joined] at hc
      split at hc
      · obtain ⟨x, hx, ht⟩ := ih hc
        exact ⟨x, by simp [hx], ht⟩
      · cases hc
    | _ =>
      refine ⟨o, by simp, ?_⟩
      generalize o.v = ov at hu
      cases hu <;> (intro ht; cases ht)

end Mem

/-- **C149** If the semantics says that the call (with the right number of arguments) is an error, the C function reports a Scheme error; it does nothing undefined, and the memory is
exactly as before. -/
theorem c149_error_partial {h : Heap} (T : FText) {name : String} (hn : name ∈ textBuiltins) {args : List Obj} {us : List Ref.Val} (ha : HoldAll h args us)
    (harity : textMem T 0 name args ≠ none) (hv : Ref.stdAp name us = .error) :
    ∃ N, ∀ fuel, N ≤ fuel → ∃ m, textMem T fuel name args = some m ∧ m h = (.err .evalError, h) := by
  suffices hc : ErrsK T h name args by
    obtain ⟨m, hm, N, hN⟩ := hc
    exact ⟨N, fun fuel hf => ⟨m fuel, hm fuel, hN fuel hf⟩⟩
  simp only [textBuiltins, List.mem_cons, List.not_mem_nil, or_false] at hn
  rcases hn with rfl | rfl | rfl | rfl | rfl | rfl | rfl | rfl | rfl | rfl | rfl | rfl | rfl | rfl | rfl | rfl | rfl | rfl | rfl | rfl | rfl | rfl | rfl | rfl | rfl | rfl | rfl | rfl | rfl | rfl | rfl | rfl | rfl | rfl
  · -- char->integer
    have hl := count1 ha rfl (fun _ _ _ => rfl) harity
    replace hv := unary_err hl hv
    obtain ⟨u, rfl, hv⟩ := hv
    obtain ⟨o, rfl, ho⟩ := hold1 ha
    refine errsK (fun _ => rfl) ?_
    have hc := charOf_err ho fun c hc => by subst hc; cases hv
    simp [charToInteger, hc, M.bind_app, M.lift]
  · -- integer->char
    rw [ap_integer_to_char] at hv
    have hl := count1 ha rfl (fun _ _ _ => rfl) harity
    replace hv := unary_err hl hv
    obtain ⟨u, rfl, hv⟩ := hv
    obtain ⟨o, rfl, ho⟩ := hold1 ha
    refine errsK (fun _ => rfl) ?_
    by_cases hu : ∃ n, u = .num n
    · obtain ⟨n, rfl⟩ := hu
      simp only at hv
      split at hv
      · cases hv
      · simp only [integerToChar]
        rw [M.bind_ok (x := M.lift _) (a := n) (h' := h) (by simp [numOf, num_cases ho, M.lift]), if_pos (by omega)]
        rfl
    · have hc := numOf_err ho fun n hn => hu ⟨n, hn⟩
      simp [integerToChar, hc, M.bind_app, M.lift]
  · -- char-upcase
    have hl := count1 ha rfl (fun _ _ _ => rfl) harity
    replace hv := unary_err hl hv
    obtain ⟨u, rfl, hv⟩ := hv
    obtain ⟨o, rfl, ho⟩ := hold1 ha
    refine errsK (fun _ => rfl) ?_
    have hc := charOf_err ho fun c hc => by subst hc; cases hv
    simp [charUpcase, hc, M.bind_app, M.lift]
  · -- char-downcase
    have hl := count1 ha rfl (fun _ _ _ => rfl) harity
    replace hv := unary_err hl hv
    obtain ⟨u, rfl, hv⟩ := hv
    obtain ⟨o, rfl, ho⟩ := hold1 ha
    refine errsK (fun _ => rfl) ?_
    have hc := charOf_err ho fun c hc => by subst hc; cases hv
    simp [charDowncase, hc, M.bind_app, M.lift]
  · -- char=?
    have hl := count2 ha rfl (fun _ => rfl) (fun _ _ _ _ => rfl) harity
    replace hv : Ref.charTest (fun a b => decide (a = b)) us = .error := hv
    replace hv := binary_err hl hv
    obtain ⟨u, w, rfl, hv⟩ := hv
    obtain ⟨o, p, rfl, ho, hp⟩ := hold2 ha
    exact errsK (fun _ => rfl) (charTest_err (r := fun a b => decide (a = b)) ho hp hv)
  · -- char<?
    have hl := count2 ha rfl (fun _ => rfl) (fun _ _ _ _ => rfl) harity
    replace hv : Ref.charTest (fun a b => decide (a < b)) us = .error := hv
    replace hv := binary_err hl hv
    obtain ⟨u, w, rfl, hv⟩ := hv
    obtain ⟨o, p, rfl, ho, hp⟩ := hold2 ha
    exact errsK (fun _ => rfl) (charTest_err (r := fun a b => decide (a < b)) ho hp hv)
  · -- char>?
    have hl := count2 ha rfl (fun _ => rfl) (fun _ _ _ _ => rfl) harity
    replace hv : Ref.charTest (fun a b => decide (a > b)) us = .error := hv
    replace hv := binary_err hl hv
    obtain ⟨u, w, rfl, hv⟩ := hv
    obtain ⟨o, p, rfl, ho, hp⟩ := hold2 ha
    exact errsK (fun _ => rfl) (charTest_err (r := fun a b => decide (a > b)) ho hp hv)
  · -- char<=?
    have hl := count2 ha rfl (fun _ => rfl) (fun _ _ _ _ => rfl) harity
    replace hv : Ref.charTest (fun a b => decide (a ≤ b)) us = .error := hv
    replace hv := binary_err hl hv
    obtain ⟨u, w, rfl, hv⟩ := hv
    obtain ⟨o, p, rfl, ho, hp⟩ := hold2 ha
    exact errsK (fun _ => rfl) (charTest_err (r := fun a b => decide (a ≤ b)) ho hp hv)
  · -- char>=?
    have hl := count2 ha rfl (fun _ => rfl) (fun _ _ _ _ => rfl) harity
    replace hv : Ref.charTest (fun a b => decide (a ≥ b)) us = .error := hv
    replace hv := binary_err hl hv
    obtain ⟨u, w, rfl, hv⟩ := hv
    obtain ⟨o, p, rfl, ho, hp⟩ := hold2 ha
    exact errsK (fun _ => rfl) (charTest_err (r := fun a b => decide (a ≥ b)) ho hp hv)
  · -- char-ci=?
    have hl := count2 ha rfl (fun _ => rfl) (fun _ _ _ _ => rfl) harity
    replace hv : Ref.charTest (fun a b => decide (Ref.upper a = Ref.upper b)) us = .error := hv
    replace hv := binary_err hl hv
    obtain ⟨u, w, rfl, hv⟩ := hv
    obtain ⟨o, p, rfl, ho, hp⟩ := hold2 ha
    exact errsK (fun _ => rfl) (charTest_err (r := fun a b => decide (Ref.upper a = Ref.upper b)) ho hp hv)
  · -- char-ci<?
    have hl := count2 ha rfl (fun _ => rfl) (fun _ _ _ _ => rfl) harity
    replace hv : Ref.charTest (fun a b => decide (Ref.upper a < Ref.upper b)) us = .error := hv
    replace hv := binary_err hl hv
    obtain ⟨u, w, rfl, hv⟩ := hv
    obtain ⟨o, p, rfl, ho, hp⟩ := hold2 ha
    exact errsK (fun _ => rfl) (charTest_err (r := fun a b => decide (Ref.upper a < Ref.upper b)) ho hp hv)
  · -- char-ci>?
    have hl := count2 ha rfl (fun _ => rfl) (fun _ _ _ _ => rfl) harity
    replace hv : Ref.charTest (fun a b => decide (Ref.upper a > Ref.upper b)) us = .error := hv
    replace hv := binary_err hl hv
    obtain ⟨u, w, rfl, hv⟩ := hv
    obtain ⟨o, p, rfl, ho, hp⟩ := hold2 ha
    exact errsK (fun _ => rfl) (charTest_err (r := fun a b => decide (Ref.upper a > Ref.upper b)) ho hp hv)
  · -- char-ci<=?
    have hl := count2 ha rfl (fun _ => rfl) (fun _ _ _ _ => rfl) harity
    replace hv : Ref.charTest (fun a b => decide (Ref.upper a ≤ Ref.upper b)) us = .error := hv
    replace hv := binary_err hl hv
    obtain ⟨u, w, rfl, hv⟩ := hv
    obtain ⟨o, p, rfl, ho, hp⟩ := hold2 ha
    exact errsK (fun _ => rfl) (charTest_err (r := fun a b => decide (Ref.upper a ≤ Ref.upper b)) ho hp hv)
  · -- char-ci>=?
    have hl := count2 ha rfl (fun _ => rfl) (fun _ _ _ _ => rfl) harity
    replace hv : Ref.charTest (fun a b => decide (Ref.upper a ≥ Ref.upper b)) us = .error := hv
    replace hv := binary_err hl hv
    obtain ⟨u, w, rfl, hv⟩ := hv
    obtain ⟨o, p, rfl, ho, hp⟩ := hold2 ha
    exact errsK (fun _ => rfl) (charTest_err (r := fun a b => decide (Ref.upper a ≥ Ref.upper b)) ho hp hv)
  · -- char-alphabetic?
    have hl := count1 ha rfl (fun _ _ _ => rfl) harity
    replace hv : Ref.charIs (fun c => decide (65 ≤ c ∧ c ≤ 90 ∨ 97 ≤ c ∧ c ≤ 122)) us = .error := hv
    replace hv := unary_err hl hv
    obtain ⟨u, rfl, hv⟩ := hv
    obtain ⟨o, rfl, ho⟩ := hold1 ha
    exact errsK (fun _ => rfl) (charIs_err (r := fun c => decide (65 ≤ c ∧ c ≤ 90 ∨ 97 ≤ c ∧ c ≤ 122)) ho hv)
  · -- char-numeric?
    have hl := count1 ha rfl (fun _ _ _ => rfl) harity
    replace hv : Ref.charIs (fun c => decide (48 ≤ c ∧ c ≤ 57)) us = .error := hv
    replace hv := unary_err hl hv
    obtain ⟨u, rfl, hv⟩ := hv
    obtain ⟨o, rfl, ho⟩ := hold1 ha
    exact errsK (fun _ => rfl) (charIs_err (r := fun c => decide (48 ≤ c ∧ c ≤ 57)) ho hv)
  · -- char-whitespace?
    have hl := count1 ha rfl (fun _ _ _ => rfl) harity
    replace hv : Ref.charIs (fun c => decide (9 ≤ c ∧ c ≤ 13 ∨ c = 32)) us = .error := hv
    replace hv := unary_err hl hv
    obtain ⟨u, rfl, hv⟩ := hv
    obtain ⟨o, rfl, ho⟩ := hold1 ha
    exact errsK (fun _ => rfl) (charIs_err (r := fun c => decide (9 ≤ c ∧ c ≤ 13 ∨ c = 32)) ho hv)
  · -- char-upper-case?
    have hl := count1 ha rfl (fun _ _ _ => rfl) harity
    replace hv : Ref.charIs (fun c => decide (65 ≤ c ∧ c ≤ 90)) us = .error := hv
    replace hv := unary_err hl hv
    obtain ⟨u, rfl, hv⟩ := hv
    obtain ⟨o, rfl, ho⟩ := hold1 ha
    exact errsK (fun _ => rfl) (charIs_err (r := fun c => decide (65 ≤ c ∧ c ≤ 90)) ho hv)
  · -- char-lower-case?
    have hl := count1 ha rfl (fun _ _ _ => rfl) harity
    replace hv : Ref.charIs (fun c => decide (97 ≤ c ∧ c ≤ 122)) us = .error := hv
    replace hv := unary_err hl hv
    obtain ⟨u, rfl, hv⟩ := hv
    obtain ⟨o, rfl, ho⟩ := hold1 ha
    exact errsK (fun _ => rfl) (charIs_err (r := fun c => decide (97 ≤ c ∧ c ≤ 122)) ho hv)
  · -- symbol->string
    have hl := count1 ha rfl (fun _ _ _ => rfl) harity
    replace hv := unary_err hl hv
    obtain ⟨u, rfl, hv⟩ := hv
    obtain ⟨o, rfl, ho⟩ := hold1 ha
    refine errsK (fun _ => rfl) ?_
    have hs : ∀ s, o.v ≠ .sym s := fun s hs => by rw [hs] at ho; cases ho; cases hv
    unfold symbolToString
    cases hov : o.v with
    | sym s => exact absurd hov (hs s)
    | _ => rfl
  · -- string->symbol
    rw [ap_string_to_symbol] at hv
    have hl := count1 ha rfl (fun _ _ _ => rfl) harity
    replace hv := unary_err hl hv
    obtain ⟨u, rfl, hv⟩ := hv
    obtain ⟨o, rfl, ho⟩ := hold1 ha
    refine errsK (fun _ => rfl) ?_
    have hc := strOf_err ho fun s hs => by
      subst hs
      simp only at hv
      split at hv <;> cases hv
    unfold stringToSymbol
    exact M.bind_err hc
  · -- string-length
    rw [ap_string_length] at hv
    have hl := count1 ha rfl (fun _ _ _ => rfl) harity
    replace hv := unary_err hl hv
    obtain ⟨u, rfl, hv⟩ := hv
    obtain ⟨o, rfl, ho⟩ := hold1 ha
    refine errsK (fun _ => rfl) ?_
    have hc := strOf_err ho fun s hs => by
      subst hs
      simp only [Ref.onText] at hv
      split at hv <;> cases hv
    unfold stringLength
    exact M.bind_err hc
  · -- string-ref
    rw [ap_string_ref] at hv
    have hl := count2 ha rfl (fun _ => rfl) (fun _ _ _ _ => rfl) harity
    replace hv := binary_err hl hv
    obtain ⟨u, w, rfl, hv⟩ := hv
    obtain ⟨o, p, rfl, ho, hp⟩ := hold2 ha
    refine errsK (fun _ => rfl) ?_
    unfold stringRef
    by_cases hu : ∃ s, u = .str s
    · obtain ⟨s, rfl⟩ := hu
      obtain ⟨a, bs, hov, rfl, hs, hl'⟩ := str_cases ho
      rw [M.bind_ok (strOf_ok hov hs)]
      by_cases hw : ∃ k, w = .num k
      · obtain ⟨k, rfl⟩ := hw
        simp only
        rw [M.bind_ok (x := M.lift _) (a := k) (h' := h) (by simp [numOf, num_cases hp, M.lift])]
        simp only [Ref.onText, text_toList] at hv
        split at hv
        · split at hv
          · rw [if_pos (by omega)]; rfl
          · rename_i hk
            rw [List.getElem?_map] at hv
            cases hg : bs[k.toNat]? with
            | some c => rw [hg] at hv; cases hv
            | none =>
              have := List.getElem?_eq_none_iff.1 hg
              rw [if_pos (by omega)]; rfl
        · cases hv
      · have hc := numOf_err hp fun n hn => hw ⟨n, hn⟩
        simp [hc, M.bind_app, M.lift]
    · exact M.bind_err (strOf_err ho fun s hs => hu ⟨s, hs⟩)
  · -- substring
    rw [ap_substring] at hv
    have hl := count3 ha rfl (fun _ => rfl) (fun _ _ => rfl) (fun _ _ _ _ _ => rfl) harity
    replace hv := ternary_err hl hv
    obtain ⟨u, w, x, rfl, hv⟩ := hv
    obtain ⟨o, p, q, rfl, ho, hp, hq⟩ := hold3 ha
    refine errsK (fun _ => rfl) ?_
    unfold substring
    by_cases hu : ∃ s, u = .str s
    · obtain ⟨s, rfl⟩ := hu
      obtain ⟨a, bs, hov, rfl, hs, hl'⟩ := str_cases ho
      rw [M.bind_ok (strOf_ok hov hs)]
      by_cases hw : ∃ k, w = .num k
      · obtain ⟨i, rfl⟩ := hw
        simp only
        rw [M.bind_ok (x := M.lift _) (a := i) (h' := h) (by simp [numOf, num_cases hp, M.lift])]
        by_cases hx : ∃ k, x = .num k
        · obtain ⟨j, rfl⟩ := hx
          rw [M.bind_ok (x := M.lift _) (a := j) (h' := h) (by simp [numOf, num_cases hq, M.lift])]
          simp only [Ref.onText, text_toList] at hv
          split at hv
          · split at hv
            · cases hv
            · rename_i hij
              simp only [List.length_map] at hij
              split
              · rfl
              · rw [if_pos (by omega)]; rfl
          · cases hv
        · have hc := numOf_err hq fun n hn => hx ⟨n, hn⟩
          simp [hc, M.bind_app, M.lift]
      · have hc := numOf_err hp fun n hn => hw ⟨n, hn⟩
        simp [hc, M.bind_app, M.lift]
    · exact M.bind_err (strOf_err ho fun s hs => hu ⟨s, hs⟩)
  · -- string-append
    replace hv : Ref.joined [] us = .error := hv
    exact errsK (fun _ => rfl) (c32_append_error h args (strs_in ha) (joined_err ha hv))
  · -- string
    replace hv : Ref.spell us = .error := hv
    refine errsK (fun _ => rfl) ?_
    have hc := charArgs_err (chars_err ha (spell_err hv))
    unfold string
    simp [hc, M.bind_app, M.lift]
  · -- string->list
    rw [ap_string_to_list] at hv
    have hl := count1 ha rfl (fun _ _ _ => rfl) harity
    replace hv := unary_err hl hv
    obtain ⟨u, rfl, hv⟩ := hv
    obtain ⟨o, rfl, ho⟩ := hold1 ha
    refine errsK (fun _ => rfl) ?_
    have hc := strOf_err ho fun s hs => by
      subst hs
      simp only [Ref.onText] at hv
      split at hv <;> cases hv
    unfold stringToList
    exact M.bind_err hc
  · -- list->string
    rw [ap_list_to_string] at hv
    have hl := count1 ha rfl (fun _ _ _ => rfl) harity
    replace hv := unary_err hl hv
    obtain ⟨u, rfl, hv⟩ := hv
    obtain ⟨o, rfl, ho⟩ := hold1 ha
    cases he : u.elems with
    | none => simp [he] at hv
    | some vs =>
      simp only [he] at hv
      obtain ⟨as, xs, hp, hall⟩ := proper_of ho he
      exact ⟨_, fun _ => rfl, xs.length + 1, fun fuel hf => c32_list_to_string_error h o as xs fuel hp (chars_err hall (spell_err hv)) (by omega)⟩
  · -- string=?
    rw [ap_stringeqP] at hv
    have hl := count2 ha rfl (fun _ => rfl) (fun _ _ _ _ => rfl) harity
    replace hv := binary_err hl hv
    obtain ⟨u, w, rfl, hv⟩ := hv
    obtain ⟨o, p, rfl, ho, hp⟩ := hold2 ha
    refine errsK (fun _ => rfl) ?_
    exact answer_err (by
      unfold stringEq
      exact two_err ho hp (fun s t e1 e2 => by subst e1; subst e2; simp only at hv; split at hv <;> cases hv) _)
  · -- string<?
    have hl := count2 ha rfl (fun _ => rfl) (fun _ _ _ _ => rfl) harity
    replace hv : Ref.textTest (fun s t => decide (s < t)) us = .error := hv
    replace hv := binary_err hl hv
    obtain ⟨u, w, rfl, hv⟩ := hv
    obtain ⟨o, p, rfl, ho, hp⟩ := hold2 ha
    exact errsK (fun _ => rfl) (textTest_err (r := fun s t => decide (s < t)) ho hp hv)
  · -- string>?
    have hl := count2 ha rfl (fun _ => rfl) (fun _ _ _ _ => rfl) harity
    replace hv : Ref.textTest (fun s t => decide (t < s)) us = .error := hv
    replace hv := binary_err hl hv
    obtain ⟨u, w, rfl, hv⟩ := hv
    obtain ⟨o, p, rfl, ho, hp⟩ := hold2 ha
    exact errsK (fun _ => rfl) (textTest_err (r := fun s t => decide (t < s)) ho hp hv)
  · -- string<=?
    have hl := count2 ha rfl (fun _ => rfl) (fun _ _ _ _ => rfl) harity
    replace hv : Ref.textTest (fun s t => decide (¬ t < s)) us = .error := hv
    replace hv := binary_err hl hv
    obtain ⟨u, w, rfl, hv⟩ := hv
    obtain ⟨o, p, rfl, ho, hp⟩ := hold2 ha
    exact errsK (fun _ => rfl) (textTest_err (r := fun s t => decide (¬ t < s)) ho hp hv)
  · -- string>=?
    have hl := count2 ha rfl (fun _ => rfl) (fun _ _ _ _ => rfl) harity
    replace hv : Ref.textTest (fun s t => decide (¬ s < t)) us = .error := hv
    replace hv := binary_err hl hv
    obtain ⟨u, w, rfl, hv⟩ := hv
    obtain ⟨o, p, rfl, ho, hp⟩ := hold2 ha
    exact errsK (fun _ => rfl) (textTest_err (r := fun s t => decide (¬ s < t)) ho hp hv)
  · -- number->string
    refine errsK (fun _ => rfl) ?_
    cases us with
    | nil => cases ha; rfl
    | cons u us =>
      cases us with
      | cons w us => cases u <;> cases hv
      | nil =>
        obtain ⟨o, rfl, ho⟩ := hold1 ha
        cases u with
        | num n =>
          replace hv : (if Ref.Word n ∧ Ref.Word (-n) then Ref.Ret.val (Ref.Val.str (toString n)) else .unknown) = .error := hv
          split at hv <;> cases hv
        | _ =>
          simp only [numberToString]
          generalize o.v = ov at ho
          cases ho <;> rfl

/-- `(string-ref "a" 1)`, `(string-append "a" 'x)`, `(integer->char 256)`. -/
example : Ref.stdAp "string-ref" [.str "a", .num 1] = .error ∧ Ref.stdAp "string-append" [.str "a", .sym "x"] = .error ∧ Ref.stdAp "integer->char" [.num 256] = .error := by
  refine ⟨?_, ?_, ?_⟩ <;> with_unfolding_all rfl

end Pscm
