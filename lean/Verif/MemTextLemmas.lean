import Verif.MemText
import Verif.MemDataProps
import Verif.RefImplData
import Verif.StrProps2
/-! # The builtins on characters and strings on data in memory: lemmas -/
namespace Pscm
open Spec
namespace Mem
variable {h h' : Heap}

theorem Keeps.refl (h : Heap) : Keeps h h := ⟨fun e => e, fun e => e⟩

theorem keeps_new (h : Heap) (s : List UInt8) (k : Nat) : Keeps h { h with strs := h.strs ++ [s], nextId := k } :=
  ⟨fun e => e, fun {a _} e => by
    have ha := getElem?_lt e
    show (h.strs ++ [s])[a]? = _
    rw [List.getElem?_append_left ha]; exact e⟩

theorem keeps_strs {s : List UInt8} (h1 : h'.strs = h.strs ++ [s]) (h2 : h'.nodes = h.nodes) : Keeps h h' :=
  ⟨fun e => by rw [h2]; exact e, fun {a _} e => by
    have ha := getElem?_lt e
    rw [h1, List.getElem?_append_left ha]; exact e⟩

/-- The call returns an object with the datum, and everything keeps its contents. -/
def WorksK (h : Heap) (m : Nat → M Obj) (u : Ref.Val) : Prop :=
  ∃ N, ∀ fuel, N ≤ fuel → ∃ r h', m fuel h = (.ok r, h') ∧ Holds h' r.v u ∧ Keeps h h'

theorem nowK {m : M Obj} {r : Obj} {u : Ref.Val} (e : m h = (.ok r, h')) (hr : Holds h' r.v u) (k : Keeps h h') : WorksK h (fun _ => m) u := ⟨0, fun _ _ => ⟨r, h', e, hr, k⟩⟩

theorem text_toList (s : List UInt8) : (textOf s).toList = s.map Ref.charOf := by
  unfold textOf
  rw [String.toList_ofList]; rfl

theorem strOf_text (s : List UInt8) : Ref.strOf (s.map Ref.charOf) = .str (textOf s) := rfl

theorem byteOf_charOf (b : UInt8) : Ref.byteOf (Ref.charOf b) = b := by
  unfold Ref.byteOf Ref.charOf
  rw [toNat_byte]; simp

theorem noNul_text {s : List UInt8} (hn : Ref.NoNul (textOf s)) : (0 : UInt8) ∉ s := by
  intro h0
  have := (Ref.noNul_iff (s := textOf s)).1 (by rw [zero_text]; simpa using h0)
  exact this hn

/-- A new string. -/
theorem newStr_holds (s : List UInt8) (hs : s.length < 2 ^ 31 - 1) : ∃ r h', newStr s h = (.ok r, h') ∧ Holds h' r.v (.str (textOf s)) ∧ Keeps h h' :=
  ⟨_, _, rfl, .str h.strs.length s (by simp) hs, keeps_new h s _⟩

theorem i32_len {s : List UInt8} (hs : s.length < 2 ^ 31 - 1) : i32 (s.length + 1) = .ok (s.length + 1 : Int) := by
  unfold i32
  rw [if_pos (by omega)]

theorem str_cases {v : Val} {s : String} (hv : Holds h v (.str s)) : ∃ a bs, v = .str a ∧ s = textOf bs ∧ h.strs[a]? = some bs ∧ bs.length < 2 ^ 31 - 1 := by
  cases hv with
  | str a bs ha hl => exact ⟨a, bs, rfl, rfl, ha, hl⟩

theorem chr_cases {v : Val} {c : UInt8} (hv : Holds h v (.chr c)) : v = .chr c := by cases hv; rfl

theorem num_cases {v : Val} {n : Int} (hv : Holds h v (.num n)) : v = .num n := by cases hv; rfl

/-! ## Characters -/

theorem charTest_works {x y : Obj} {u w v : Ref.Val} {r : Nat → Nat → Bool} {p : UInt8 → UInt8 → Bool} (hr : ∀ a b : UInt8, r a.toNat b.toNat = p a b) (hx : Holds h x.v u) (hy : Holds h y.v w)
    (hv : Ref.charTest r [u, w] = .val v) : WorksK h (fun _ => charAnswer (charCmp p x y)) v := by
  cases u with
  | chr a =>
    cases w with
    | chr b =>
      cases hv
      refine nowK (r := Obj.ofBool (r a.toNat b.toNat)) (h' := h) ?_ (by cases r a.toNat b.toNat <;> exact .bool _) (.refl h)
      simp [charAnswer, answer, charCmp, charOf, chr_cases hx, chr_cases hy, M.bind_app, M.lift, hr]
    | _ => cases hv
  | _ => cases hv

theorem charIs_works {x : Obj} {u v : Ref.Val} {r : Nat → Bool} {p : UInt8 → Bool} (hr : ∀ a : UInt8, r a.toNat = p a) (hx : Holds h x.v u) (hv : Ref.charIs r [u] = .val v) :
    WorksK h (fun _ => charAnswer (charClass p x)) v := by
  cases u with
  | chr a =>
    cases hv
    refine nowK (r := Obj.ofBool (r a.toNat)) (h' := h) ?_ (by cases r a.toNat <;> exact .bool _) (.refl h)
    simp [charAnswer, answer, charClass, charOf, chr_cases hx, M.bind_app, M.lift, hr]
  | _ => cases hv

/-! ## Strings -/

theorem textTest_works {x y : Obj} {u w v : Ref.Val} {r : String → String → Bool} {lt gt : Bool} {eq : Nat → Nat → Bool}
    (hr : ∀ s t : String, r s t = match (if s < t then Ordering.lt else if t < s then .gt else .eq) with | .lt => lt | .gt => gt | .eq => eq 0 0)
    (he : ∀ m n, eq m n = match compare m n with | .lt => lt | .gt => gt | .eq => eq 0 0)
    (hx : Holds h x.v u) (hy : Holds h y.v w) (hv : Ref.textTest r [u, w] = .val v) : WorksK h (fun _ => answer (stringCmp lt gt eq x y)) v := by
  cases u with
  | str a =>
    cases w with
    | str b =>
      simp only [Ref.textTest, Ref.binary] at hv
      split at hv
      · rename_i hn
        cases hv
        obtain ⟨i, s, hxv, rfl, hs, -⟩ := str_cases hx
        obtain ⟨j, t, hyv, rfl, ht, -⟩ := str_cases hy
        refine nowK (r := Obj.ofBool (r (textOf s) (textOf t))) (h' := h) ?_ (by cases r (textOf s) (textOf t) <;> exact .bool _) (.refl h)
        have hvd := Ref.verdict_lt (textOf s).toList (textOf t).toList hn.1.1 hn.2.1.1 hn.2.2.1
        have e1 : ((textOf s).toList.map fun c => UInt8.ofNat c.toNat) = s := bytesOf_textOf s
        have e2 : ((textOf t).toList.map fun c => UInt8.ofNat c.toNat) = t := bytesOf_textOf t
        rw [e1, e2] at hvd
        simp only [answer, M.bind_app, stringCmp_run hxv hs hyv ht, hr, String.lt_iff, ← hvd, Ref.verdict]
        show (Res.ok (Obj.ofBool _), h) = _
        congr 3
        split
        · rename_i h1; simp only [h1]
        · rename_i h1; simp only [h1]
        · rename_i h1; simp only [h1]; rw [he]
      · cases hv
    | _ => cases hv
  | _ => cases hv

theorem chars_of {os : List Obj} {us : List Ref.Val} (ho : HoldAll h os us) : ∀ {cs : List Char}, Ref.chars us = some cs → ∃ bs : List UInt8, os.map (·.v) = bs.map Val.chr ∧ cs = bs.map Ref.charOf := by
  induction ho with
  | nil => intro cs hc; cases hc; exact ⟨[], rfl, rfl⟩
  | @cons o u os us hu _ ih =>
    intro cs hc
    cases u with
    | chr c =>
      simp only [Ref.chars] at hc
      cases hr : Ref.chars us with
      | none => rw [hr] at hc; cases hc
      | some cs' =>
        rw [hr] at hc
        cases hc
        obtain ⟨bs, e1, e2⟩ := ih hr
        exact ⟨c :: bs, by simp [chr_cases hu, e1], by simp [e2]⟩
    | _ => cases hc

theorem joined_of {os : List Obj} {us : List Ref.Val} (ho : HoldAll h os us) : ∀ {acc : List Char} {v : Ref.Val}, acc.length < 2 ^ 31 - 1 → Ref.joined acc us = .val v →
    ∃ ss : List (List UInt8), os.map (fun o => match o.v with | .str a => h.strs[a]? | _ => none) = ss.map some ∧ v = Ref.strOf (acc ++ ss.flatten.map Ref.charOf) ∧
      acc.length + ss.flatten.length < 2 ^ 31 - 1 := by
  induction ho with
  | nil => intro acc v hl hv; cases hv; exact ⟨[], rfl, by simp, by simpa using hl⟩
  | @cons o u os us hu _ ih =>
    intro acc v hl hv
    cases u with
    | str s =>
      obtain ⟨a, bs, hov, rfl, hs, hb⟩ := str_cases hu
      simp only [Ref.joined] at hv
      split at hv
      · rename_i hf
        obtain ⟨ss, e1, e2, e3⟩ := ih hf.2 hv
        refine ⟨bs :: ss, by simp [hov, hs, e1], ?_, ?_⟩
        · rw [e2, text_toList]; simp
        · rw [text_toList] at e3; simp at e3 ⊢; omega
      · cases hv
    | _ => cases hv

theorem digs_len (r : Nat) : ∀ fuel n, (digs r fuel n).length ≤ fuel
  | 0, _ => Nat.le_refl 0
  | fuel + 1, n => by
    unfold digs
    split
    · have := digs_len r fuel (n / r); simp; omega
    · simp

theorem number_bytes {n : Int} (hn : Ref.Word n ∧ Ref.Word (-n)) : ∃ bs, intToStringRadix n 10 = .ok bs ∧ textOf bs = toString n ∧ bs.length < 2 ^ 31 - 1 := by
  have ht : (match intToStringRadix n 10 with
    | .ok bs => some (Res.ok (Pscm.Ev.V.str (String.ofList (bs.map fun (b : UInt8) => Char.ofNat b.toNat))))
    | .ub => some .ub
    | _ => none) = some (.ok (.str (toString n))) := Ref.number_text hn
  have hi := intToStringRadix_ok (r := 10) (by decide) hn.1 (Ref.word_min hn).2
  rw [hi] at ht
  refine ⟨_, hi, ?_, ?_⟩
  · simp only [Option.some.injEq, Res.ok.injEq, Pscm.Ev.V.str.injEq] at ht
    exact ht
  · have := digs_len 10 64 n.natAbs
    split
    · decide
    · split <;> simp <;> omega

end Mem
end Pscm
