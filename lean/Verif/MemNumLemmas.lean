import Verif.MemNum
import Verif.MemTextProps2
import Verif.RefImpl3
/-! # The numeric builtins on data in memory: lemmas -/
namespace Pscm
open Spec
namespace Mem
variable {h : Heap} {F : FArith}

/-- The call returns a number or a boolean with the datum; only the counter of objects changes. -/
def NumOk (h : Heap) (m : M Obj) (v : Ref.Val) : Prop := ∃ r h', m h = (.ok r, h') ∧ Holds h' r.v v ∧ Keeps h h'

theorem num_ok {r : Res NumV} {n : Int} (hr : r = .ok (.int n)) (hn : Ref.Word n) : NumOk h (numAnswer r) (.num n) := by
  subst hr
  exact ⟨⟨h.nextId, .num n⟩, { h with nextId := h.nextId + 1 }, rfl, .num n hn, keeps_ext (ext_newId h _ (by omega))⟩

theorem bool_ok {r : Res Bool} {b : Bool} (hr : r = .ok b) : NumOk h (charAnswer r) (.bool b) := by
  subst hr
  exact ⟨Obj.ofBool b, h, rfl, by cases b <;> exact .bool _, .refl h⟩

theorem args_of {os : List Obj} {us : List Ref.Val} (ho : HoldAll h os us) : ∀ {ns : List Int}, Ref.ints us = some ns → numArgs os = ns.map .int ∧ ∀ n ∈ ns, Ref.Word n := by
  induction ho with
  | nil => intro ns hn; cases hn; exact ⟨rfl, by simp⟩
  | @cons o u os us hu _ ih =>
    intro ns hn
    cases u with
    | num n =>
      simp only [Ref.ints] at hn
      cases hr : Ref.ints us with
      | none => rw [hr] at hn; cases hn
      | some ns' =>
        rw [hr] at hn
        cases hn
        obtain ⟨e1, e2⟩ := ih hr
        refine ⟨?_, ?_⟩
        · simp only [numArgs, List.map_cons, List.cons.injEq]
          exact ⟨by rw [num_cases hu]; rfl, e1⟩
        · intro m hm
          rcases List.mem_cons.1 hm with rfl | hm
          · generalize o.v = ov at hu
            cases hu; assumption
          · exact e2 m hm
    | _ => cases hn

theorem ints_one {u : Ref.Val} {n : Int} (e : u = .num n) {o : Obj} (ho : Holds h o.v u) : o.v.toNumV = .int n ∧ Ref.Word n := by
  subst e
  generalize o.v = ov at ho
  cases ho
  exact ⟨rfl, by assumption⟩

theorem not_int {u : Ref.Val} {o : Obj} (ho : Holds h o.v u) (hn : ∀ n, u ≠ .num n) : o.v.toNumV = .other := by
  generalize o.v = ov at ho
  cases ho <;> first | rfl | exact absurd rfl (hn _)

theorem running_word {f : Int → Int → Int} : ∀ {ns : List Int} {acc : Int} {v : Ref.Val}, Ref.Word acc → Ref.running f acc ns = .val v → Ref.Word (ns.foldl f acc)
  | [], _, _, hw, _ => hw
  | n :: ns, acc, v, _, h => by
    unfold Ref.running at h
    split at h
    · rename_i hw
      rw [List.foldl_cons]
      exact running_word hw h
    · cases h

theorem fold_run {f : Int → Int → Int} {g : NumV → NumV → Res NumV} (hg : ∀ a b, Ref.Word (f a b) → g (.int a) (.int b) = .ok (.int (f a b))) :
    ∀ {ns : List Int} {acc : Int} {v : Ref.Val}, Ref.running f acc ns = .val v → reduceR g (.int acc) (ns.map .int) = .ok (.int (ns.foldl f acc))
  | [], _, _, _ => rfl
  | n :: ns, acc, v, h => by
    unfold Ref.running at h
    split at h
    · rename_i hw
      simp only [List.map_cons, reduceR, hg acc n hw, Res.bind_ok, List.foldl_cons]
      exact fold_run hg h
    · cases h

theorem divisions {a b : Int} (hb : b ≠ 0) (ha : InI64 a) (hb' : InI64 b) (hq : InI64 (a.tdiv b)) :
    quotientP (.int a) (.int b) = .ok (.int (a.tdiv b)) ∧ (remainderP (.int a) (.int b) = .ok (.int (a.tmod b)) ∧ Ref.Word (a.tmod b)) ∧
      moduloP (.int a) (.int b) = .ok (.int (a.fmod b)) ∧ Ref.Word (a.fmod b) := by
  obtain ⟨q, r, m, h1, h2, h3, h4, h5, h6, h7, ⟨k, h8⟩, h9, h10⟩ := c02_division a b ha hb' hb (Ref.not_over hq)
  have hq' : quotientP (.int a) (.int b) = .ok (.int (a.tdiv b)) := by
    simp [quotientP, hb, div64, i64_ok hq]
  rw [h1] at hq'
  have e : q = a.tdiv b := by injection hq' with h; injection h
  have hr : r = a.tmod b := by
    have := Int.mul_tdiv_add_tmod a b
    rw [e] at h4
    omega
  have hm := Ref.fmod_unique h8 h9 h10 hb
  rw [h1, h2, h3, ← e, ← hr, ← hm]
  unfold InI64 at hb'
  refine ⟨rfl, ⟨rfl, ?_⟩, rfl, ?_⟩
  · constructor <;> omega
  · rcases Int.lt_or_gt_of_ne hb with h | h
    · have := h10 h; constructor <;> omega
    · have := h9 h; constructor <;> omega

theorem gcd_bound {B : Nat} : ∀ (ns : List Int) (g : Nat), g < B → (∀ n ∈ ns, n.natAbs < B) → ns.foldl (fun g n => Nat.gcd g n.natAbs) g < B
  | [], _, hg, _ => hg
  | n :: ns, g, hg, hn => by
    rw [List.foldl_cons]
    refine gcd_bound ns _ ?_ fun m hm => hn m (.tail _ hm)
    have hw := hn n (.head _)
    rcases Nat.eq_zero_or_pos g with rfl | hp
    · rw [Nat.gcd_zero_left]; exact hw
    · exact Nat.lt_of_le_of_lt (Nat.gcd_le_left n.natAbs hp) hg

end Mem
end Pscm
