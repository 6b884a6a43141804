import Verif.MemNumProps
import Verif.MemProg
/-!
# C150, errors: programs of calls of which one is an error
-/
namespace Pscm
open Spec Mem

namespace Mem

/-- One call that is an error. -/
theorem std_error {h : Heap} (F : FArith) (T : FText) {name : String} (hn : name ∈ Ref.stdNames) {args : List Obj} {us : List Ref.Val} (ha : HoldAll h args us)
    (hv : Ref.stdAp name us = .error) : (∃ fuel, stdMem F T fuel name args = none) ∨
      ∃ fuel m e h', stdMem F T fuel name args = some m ∧ m h = (.err e, h') ∧ ∀ w u, Holds h w u → Holds h' w u := by
  by_cases h0 : stdMem F T 0 name args = none
  · exact .inl ⟨0, h0⟩
  refine .inr ?_
  rcases std_split hn with hl | hl | hl
  · have hm : memCall F 0 name args ≠ none := by
      intro hm
      apply h0
      simp only [stdMem, dataMem, hm]
      have h1 : textMem T 0 name args = none ∧ numMem F name args = none := by
        simp only [listBuiltins, List.mem_cons, List.not_mem_nil, or_false] at hl
        rcases hl with rfl | rfl | rfl | rfl | rfl | rfl | rfl | rfl | rfl | rfl | rfl | rfl | rfl | rfl | rfl | rfl | rfl | rfl | rfl | rfl | rfl | rfl | rfl | rfl | rfl | rfl | rfl | rfl | rfl | rfl | rfl | rfl | rfl <;>
          rcases args with _ | ⟨a, _ | ⟨b, _ | ⟨c, _ | ⟨d, r⟩⟩⟩⟩ <;> exact ⟨rfl, rfl⟩
      rw [h1.1, h1.2]
    obtain ⟨N, hN⟩ := c148_error_partial F hl ha hm hv
    obtain ⟨m, e, h1, e1, e2, hk⟩ := hN N (Nat.le_refl N)
    exact ⟨N, m, e, h1, by simp [stdMem, dataMem, e1], e2, hk⟩
  · have hm : textMem T 0 name args ≠ none := by
      intro hm
      apply h0
      simp only [stdMem, dataMem, memCall_list hl, hm]
      simp only [textBuiltins, List.mem_cons, List.not_mem_nil, or_false] at hl
      rcases hl with rfl | rfl | rfl | rfl | rfl | rfl | rfl | rfl | rfl | rfl | rfl | rfl | rfl | rfl | rfl | rfl | rfl | rfl | rfl | rfl | rfl | rfl | rfl | rfl | rfl | rfl | rfl | rfl | rfl | rfl | rfl | rfl | rfl | rfl <;>
        rcases args with _ | ⟨a, _ | ⟨b, _ | ⟨c, _ | ⟨d, r⟩⟩⟩⟩ <;> rfl
    obtain ⟨N, hN⟩ := c149_error_partial T hl ha hm hv
    obtain ⟨m, e1, e2⟩ := hN N (Nat.le_refl N)
    exact ⟨N, m, .evalError, h, by simp [stdMem, dataMem, memCall_list hl, e1], e2, fun _ _ hw => hw⟩
  · have hc := fun fuel => memCall_num (F := F) (T := T) (fuel := fuel) hl args
    have hm : numMem F name args ≠ none := by
      intro hm
      apply h0
      simp only [stdMem, dataMem, (hc 0).1, (hc 0).2, hm]
    obtain ⟨m, e1, e, e2⟩ := c150_error_partial F hl ha hm hv
    exact ⟨0, m, e, h, by simp [stdMem, dataMem, (hc 0).1, (hc 0).2, e1], e2, fun _ _ hw => hw⟩

end Mem

/-- **C150** A program of calls of any builtins of the reference semantics: if the semantics says that it is an error, the C functions called one after the other end with a Scheme error,
and everything that held a datum before holds it afterwards. -/
theorem c150_program_error_partial (F : FArith) (T : FText) : ∀ {ls : Lines} {h : Heap} {os : List Obj} {us : List Ref.Val}, (∀ l ∈ ls, l.1 ∈ Ref.stdNames) →
    HoldAll h os us → meaning ls us = .error → ∃ h', LinesFail (stdMem F T) ls os h h' ∧ ∀ w u, Holds h w u → Holds h' w u := by
  intro ls
  induction ls with
  | nil => intro h os us _ _ hm; cases hm
  | cons l ls ih =>
    intro h os us hls ho hm
    obtain ⟨f, is⟩ := l
    simp only [meaning] at hm
    cases hp : picks us is with
    | none => simp [hp] at hm
    | some ws =>
      simp only [hp] at hm
      obtain ⟨as, ha1, ha2⟩ := Mem.picks_hold ho hp
      cases hf : Ref.stdAp f ws with
      | error =>
        rcases std_error F T (hls (f, is) (List.mem_cons_self ..)) ha2 hf with ⟨fuel, h0⟩ | ⟨fuel, m, e, h', e1, e2, hk⟩
        · exact ⟨h, .count ha1 h0, fun _ _ hw => hw⟩
        · exact ⟨h', .here ha1 e1 e2, hk⟩
      | unknown => simp [hf] at hm
      | val v =>
        simp only [hf] at hm
        obtain ⟨fuel, m, r, h1, e1, e2, hr, hk⟩ := std_call F T (hls (f, is) (List.mem_cons_self ..)) ha2 hf
        have hos : HoldAll h1 os us := by
          clear hm hp ha1 ha2 ih hls
          induction ho with
          | nil => exact .nil
          | cons hx _ ih => exact .cons (hk _ _ hx) ih
        obtain ⟨h', hrun, hk'⟩ := ih (fun l hl => hls l (by simp [hl])) (hos.append (.cons hr .nil)) hm
        exact ⟨h', .later ha1 e1 e2 hrun, fun w u hw => hk' w u (hk w u hw)⟩

/-- `(car (cdr (list 7 ...)))`: an error in the third line. -/
example : meaning [("list", [0]), ("cdr", [1]), ("car", [2]), ("+", [0, 3])] [.num 7] = .error := by rfl

end Pscm
