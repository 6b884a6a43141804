import Verif.ReplScan
/-! # Lemmas for C111: written data are complete lines -/
namespace Pscm.Repl
open Rd Rd.Spec Port
variable {F : FloIO}

/-- A complete text on one line. -/
def Clean (s : Bytes) : Prop := Nested s ∧ ∀ c ∈ s, c ≠ 10 ∧ c ≠ 0

theorem Clean.nil : Clean [] := ⟨.nil, by simp⟩

theorem Clean.append {s t : Bytes} (hs : Clean s) (ht : Clean t) : Clean (s ++ t) :=
  ⟨hs.1.append ht.1, fun c hc => (List.mem_append.1 hc).elim (hs.2 c) (ht.2 c)⟩

theorem Clean.of_mem : ∀ {s : Bytes}, (∀ c ∈ s, c ∉ ([40, 41, 34, 59, 92, 10, 0] : List UInt8)) → Clean s
  | [], _ => .nil
  | c :: s, h => by
    have ih := Clean.of_mem (s := s) fun c hc => h c (.tail _ hc)
    have hc := h c (.head _)
    simp only [List.mem_cons, List.not_mem_nil, or_false, not_or] at hc
    refine ⟨.plain (by simp [hc]) ih.1, fun x hx => ?_⟩
    rcases List.mem_cons.1 hx with rfl | hx
    · exact ⟨hc.2.2.2.2.2.1, hc.2.2.2.2.2.2⟩
    · exact ih.2 x hx

theorem Clean.cons {c : UInt8} {s : Bytes} (hc : c ∉ ([40, 41, 34, 59, 92, 10, 0] : List UInt8)) (hs : Clean s) : Clean (c :: s) :=
  Clean.append (s := [c]) (.of_mem (by simpa using hc)) hs

theorem Clean.paren {s : Bytes} (h : Clean s) : Clean (40 :: (s ++ [41])) := by
  refine ⟨.nest h.1 .nil, fun c hc => ?_⟩
  simp only [List.mem_cons, List.mem_append, List.not_mem_nil, or_false] at hc
  rcases hc with rfl | hc | rfl
  · decide
  · exact h.2 c hc
  · decide

theorem clean_str (s : Bytes) : Clean (strText true s) := by
  refine ⟨.str (strBody_text s) .nil, fun c hc => ?_⟩
  have he : ∀ x : UInt8, ∀ c ∈ escChar x, c ≠ 10 ∧ c ≠ 0 := by
    intro x c hc
    have := (show ∀ x : UInt8, (escChar x).all (fun c => c != 10 && c != 0) = true by decide +kernel) x
    have := List.all_eq_true.1 this c hc
    simpa using this
  simp only [strText, if_true, List.mem_cons, List.mem_append, List.mem_flatMap, List.not_mem_nil, or_false] at hc
  rcases hc with rfl | ⟨x, _, hc⟩ | rfl
  · decide
  · exact he x c hc
  · decide

theorem clean_sym {s : Bytes} (h : SymOk s) : Clean (symText s) := by
  rw [(symOk_cstr h).2.2]
  exact .of_mem fun c hc => (show ∀ c : UInt8, isConst c = true → c ∉ ([40, 41, 34, 59, 92, 10, 0] : List UInt8) by decide +kernel) c
    (symChar_iff.1 (h.chars c hc))

theorem clean_num (n : Int) : Clean (printLld n) := by
  have hd : ∀ c ∈ printD n.natAbs, c ∉ ([40, 41, 34, 59, 92, 10, 0] : List UInt8) := fun c hc =>
    (show ∀ c : UInt8, isDigit c = true → c ∉ ([40, 41, 34, 59, 92, 10, 0] : List UInt8) by decide +kernel) c (decLoop_digits _ _ c hc)
  unfold printLld
  split
  · exact .cons (by decide) (.of_mem hd)
  · exact .of_mem hd

theorem clean_chr {c : UInt8} (h : c ≠ 0) : Clean (charText true c) := by
  have e1 : Nested (asc "#\\space") := (.plain (by decide) (.esc (c := 115) (Clean.of_mem (s := asc "pace") (by decide +kernel)).1) : Nested (35 :: 92 :: 115 :: asc "pace"))
  have e2 : Nested (asc "#\\newline") := (.plain (by decide) (.esc (c := 110) (Clean.of_mem (s := asc "ewline") (by decide +kernel)).1) : Nested (35 :: 92 :: 110 :: asc "ewline"))
  have e3 : Nested (asc "#\\ht") := (.plain (by decide) (.esc (c := 104) (Clean.of_mem (s := asc "t") (by decide +kernel)).1) : Nested (35 :: 92 :: 104 :: asc "t"))
  unfold charText
  rw [if_pos rfl]
  split
  · exact ⟨e1, by decide +kernel⟩
  · split
    · exact ⟨e2, by decide +kernel⟩
    · split
      · exact ⟨e3, by decide +kernel⟩
      · rename_i h1 h2 h3
        refine ⟨.plain (by decide) (.esc .nil), fun x hx => ?_⟩
        simp only [List.mem_cons, List.not_mem_nil, or_false] at hx
        rcases hx with rfl | rfl | rfl
        · decide
        · decide
        · exact ⟨by simpa using h2, h⟩

theorem clean_bool (b : Bool) (c : Ctx) : Clean (pr F .datum true c (.bool b)) := by
  cases b
  · show Clean (asc "#f"); exact .of_mem (by decide +kernel)
  · show Clean (asc "#t"); exact .of_mem (by decide +kernel)

theorem clean_pr (d : D) : (Readable .datum d → ∀ c, Clean (pr F .datum true c d)) ∧
    (Readable .tail d → ∀ c, Clean (pr F .tail true c d)) ∧
    (Readable .elems d → ∀ c b, Clean (pr F (.elems b) true c d)) ∧
    (∀ x e, d = .pair x e → Readable .datum x → ∀ c, Clean (pr F .datum true c x)) := by
  have hsp : (32 : UInt8) ∉ ([40, 41, 34, 59, 92, 10, 0] : List UInt8) := by decide
  induction d with
  | nil => exact ⟨fun _ c => (show Clean (asc "()") from Clean.paren (s := []) .nil), fun _ c => .nil, fun _ c b => .nil, by simp⟩
  | bool b => exact ⟨fun _ c => clean_bool b c, fun h => absurd h id, fun h => absurd h id, by simp⟩
  | num n => exact ⟨fun _ c => clean_num n, fun h => absurd h id, fun h => absurd h id, by simp⟩
  | flo b => exact ⟨fun h => absurd h id, fun h => absurd h id, fun h => absurd h id, by simp⟩
  | ratio n d => exact ⟨fun h => absurd h id, fun h => absurd h id, fun h => absurd h id, by simp⟩
  | chr x => exact ⟨fun hr c => clean_chr hr, fun h => absurd h id, fun h => absurd h id, by simp⟩
  | str s => exact ⟨fun _ c => clean_str s, fun h => absurd h id, fun h => absurd h id, by simp⟩
  | sym s => exact ⟨fun hr c => clean_sym hr, fun h => absurd h id, fun h => absurd h id, by simp⟩
  | vec e ih =>
    refine ⟨fun hr c => ?_, fun h => absurd h id, fun h => absurd h id, by simp⟩
    have h1 : asc "#(" = [35, 40] := by decide +kernel
    have h2 : asc ")" = [41] := by decide +kernel
    show Clean (asc "#(" ++ pr F (.elems true) true c e ++ asc ")")
    rw [h1, h2]
    exact .cons (by decide) (Clean.paren (ih.2.2.1 hr c true))
  | dot x ih =>
    refine ⟨fun h => absurd h id, fun hr c => ?_, fun h => absurd h id, by simp⟩
    have hr : Readable .datum x := hr
    unfold pr
    split
    · rename_i hp
      have hx : Readable .tail x := by
        cases x with
        | pair a d => exact ⟨hr.1, hr.2.1⟩
        | _ => simp [properPair] at hp
      exact ih.2.1 hx c
    · have : asc " . " = [32, 46, 32] := by decide +kernel
      rw [this]
      exact .cons hsp (.cons (by decide) (.cons hsp (ih.1 hr c)))
  | pair a d iha ihd =>
    refine ⟨fun hr c => ?_, fun hr c => ?_, fun hr c b => ?_, fun x e he hx c => ?_⟩
    · rcases pr_pair (F := F) (c := c) hr with ⟨rfl, _, x, rfl, he⟩ | ⟨c', he⟩
      · rw [he]
        exact .cons (by decide) (ihd.2.2.2 x .nil rfl hr.2.1.1 c)
      · rw [he]
        exact Clean.paren ((iha.1 hr.1 c).append (ihd.2.1 hr.2.1 c'))
    · have e1 : pr F .tail true c (.pair a d) = 32 :: (pr F .datum true c a ++ pr F .tail true c d) := by simp [pr]
      rw [e1]
      exact .cons hsp ((iha.1 hr.1 c).append (ihd.2.1 hr.2 c))
    · have e1 : pr F (.elems b) true c (.pair a d) = (if b then [] else [32]) ++ (pr F .datum true c a ++ pr F (.elems false) true c d) := by simp [pr]
      rw [e1]
      have := (iha.1 hr.1 c).append (ihd.2.2.1 hr.2 c false)
      cases b
      · exact .cons hsp this
      · exact this
    · injection he with h1 h2
      subst h1
      exact iha.1 hx c

end Pscm.Repl
