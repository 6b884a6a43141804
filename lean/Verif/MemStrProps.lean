import Verif.MemData3
import Verif.MemStrSpec
import Verif.StrProps
/-!
# C153: an assignment to a string, on whole data
-/
namespace Pscm
open Spec

namespace Mem
variable {h h' : Heap}

theorem str_frame {a : Addr} (hn : h'.nodes = h.nodes) (hs : ∀ b, b ≠ a → h'.strs[b]? = h.strs[b]?) {w : Val} {u : Ref.Val} (hw : Holds h w u) : ¬ HasStr h w a → Holds h' w u := by
  induction hw with
  | nil => intro _; exact .nil
  | bool b => intro _; exact .bool b
  | num n k => intro _; exact .num n k
  | chr c => intro _; exact .chr c
  | sym s k1 k2 => intro _; exact .sym s k1 k2
  | str b s k1 k2 => intro hu; exact .str b s (by rw [hs b fun e => hu (e ▸ .here)]; exact k1) k2
  | last kn hd hx hu ih => intro hu; exact .last (by rw [hn]; exact kn) hd hx (ih fun k => hu (.car kn k))
  | next kn hd hx _ _ ih1 ih2 => intro hu; exact .next (by rw [hn]; exact kn) hd hx (ih1 fun k => hu (.car kn k)) (ih2 fun k => hu (.cdr kn hx k))
  | dot kn hd hx km hf hnn h1 h2 _ _ ih1 ih2 =>
    intro hu
    exact .dot (by rw [hn]; exact kn) hd hx (by rw [hn]; exact km) hf hnn h1 h2 (ih1 fun k => hu (.car kn k)) (ih2 fun k => hu (.cdr kn hx (.car km k)))

theorem str_still {a : Addr} (hn : h'.nodes = h.nodes) (hs : ∀ b, b ≠ a → h'.strs[b]? = h.strs[b]?) {d : Ref.Val} (ha : Holds h' (.str a) d) {w : Val} {u : Ref.Val} (hw : Holds h w u) :
    ∃ u', ReadStr h a d w u' ∧ Holds h' w u' := by
  induction hw with
  | nil => exact ⟨_, .apart .nil (by intro k; cases k), .nil⟩
  | bool b => exact ⟨_, .apart (.bool b) (by intro k; cases k), .bool b⟩
  | num n k => exact ⟨_, .apart (.num n k) (by intro k; cases k), .num n k⟩
  | chr c => exact ⟨_, .apart (.chr c) (by intro k; cases k), .chr c⟩
  | sym s k1 k2 => exact ⟨_, .apart (.sym s k1 k2) (by intro k; cases k), .sym s k1 k2⟩
  | str b s k1 k2 =>
    by_cases e : b = a
    · subst e; exact ⟨_, .here, ha⟩
    · exact ⟨_, .apart (.str b s k1 k2) (by intro k; cases k; exact e rfl), .str b s (by rw [hs b e]; exact k1) k2⟩
  | last kn hd hx _ ih =>
    obtain ⟨u', r, hu'⟩ := ih
    exact ⟨_, .last kn hd hx r, .last (by rw [hn]; exact kn) hd hx hu'⟩
  | next kn hd hx _ _ ih1 ih2 =>
    obtain ⟨u', r1, hu'⟩ := ih1
    obtain ⟨w', r2, hw'⟩ := ih2
    exact ⟨_, .next kn hd hx r1 r2, .next (by rw [hn]; exact kn) hd hx hu' hw'⟩
  | dot kn hd hx km hf hnn h1 h2 _ _ ih1 ih2 =>
    obtain ⟨u', r1, hu'⟩ := ih1
    obtain ⟨w', r2, hw'⟩ := ih2
    exact ⟨_, .dot kn hd hx km hf r1 r2, .dot (by rw [hn]; exact kn) hd hx (by rw [hn]; exact km) hf hnn h1 h2 hu' hw'⟩

end Mem
open Mem

/-- **C153** `(string-set! s k c)`: afterwards the string holds the text with the character at the index, what does not contain the string holds the same datum as before, and what contains it holds this
datum with the string read anew; an index outside of the text is an error that changes nothing. -/
theorem c153_string_set_partial {h : Heap} {o k ch : Obj} {a : Addr} {t : String} {n : Int} {c : UInt8} (hv : o.v = .str a) (ho : Holds h o.v (.str t)) (hk : Holds h k.v (.num n))
    (hc : Holds h ch.v (.chr c)) :
    ((0 ≤ n ∧ n < t.toList.length) → ∃ h', stringSet o k ch h = (.ok Obj.none, h') ∧ Holds h' o.v (.str (putChar t n.toNat c)) ∧
      (∀ w d, Holds h w d → ¬ HasStr h w a → Holds h' w d) ∧ ∀ w d, Holds h w d → ∃ d', ReadStr h a (.str (putChar t n.toNat c)) w d' ∧ Holds h' w d') ∧
    ((n < 0 ∨ (t.toList.length : Int) ≤ n) → stringSet o k ch h = (.err .evalError, h)) := by
  rw [hv] at ho
  obtain ⟨s, hs, hlen, rfl⟩ : ∃ s, h.strs[a]? = some s ∧ s.length < 2 ^ 31 - 1 ∧ t = textOf s := by
    cases ho with | str _ s h1 h2 => exact ⟨s, h1, h2, rfl⟩
  have hkv : k.v = .num n := by
    generalize k.v = v at hk
    cases hk; rfl
  have hcv : ch.v = .chr c := by
    generalize ch.v = v at hc
    cases hc; rfl
  have htl : (textOf s).toList = s.map Ref.charOf := by
    unfold textOf
    rw [String.toList_ofList]; rfl
  have hl : (textOf s).toList.length = s.length := by rw [htl]; simp
  obtain ⟨h1, h2⟩ := c31_set h o k ch a s hv hs
  rw [hl]
  refine ⟨fun hn => ?_, fun hn => h2 (.inl fun i hi => ?_)⟩
  · obtain ⟨h', e, e1, e2, e3, -⟩ := h1 n.toNat c (by rw [hkv]; congr 1; omega) (by omega) hcv
    have hnew : Holds h' (.str a) (.str (putChar (textOf s) n.toNat c)) := by
      have : putChar (textOf s) n.toNat c = textOf (s.set n.toNat c) := by
        unfold putChar
        rw [htl, ← List.map_set]; rfl
      rw [this]
      exact .str a _ e1 (by simpa using hlen)
    exact ⟨h', e, by rw [hv]; exact hnew, fun w d hw hu => str_frame e3 e2 hw hu, fun w d hw => str_still e3 e2 hnew hw⟩
  · rw [hkv] at hi
    cases hi
    omega

/-- A heap with the string `"ab"` and the list `("ab" 1)` that contains it. -/
def Mem.strHeap : Heap :=
  { nodes := [⟨⟨0, .str 0⟩, some 1, false⟩, ⟨⟨1, .num 1⟩, none, false⟩], vecs := [], strs := [[97, 98]], nextId := 2 }

/-- The hypotheses are met, and the list reads `("aZ" 1)` after `(string-set! s 1 #\Z)`. -/
example : Holds Mem.strHeap (.str 0) (.str "ab") ∧ Holds Mem.strHeap (.num 1) (.num 1) ∧ Holds Mem.strHeap (.chr 90) (.chr 90) ∧
    Holds Mem.strHeap (.list 0) (.pair (.str "ab") (.pair (.num 1) .nil)) ∧ ¬ HasStr Mem.strHeap (.list 1) 0 ∧
    ReadStr Mem.strHeap 0 (.str "aZ") (.list 0) (.pair (.str "aZ") (.pair (.num 1) .nil)) := by
  have h1 : Holds Mem.strHeap (.list 1) (.pair (.num 1) .nil) := .last (n := ⟨⟨1, .num 1⟩, none, false⟩) rfl rfl rfl (.num 1 (by decide))
  have hs : Holds Mem.strHeap (.str 0) (.str "ab") := .str 0 [97, 98] rfl (by decide)
  have hu : ¬ HasStr Mem.strHeap (.list 1) 0 := by
    intro k
    cases k with
    | car hn k => cases hn; cases k
    | cdr hn hx k => cases hn; cases hx
  exact ⟨hs, .num 1 (by decide), .chr 90, .next (n := ⟨⟨0, .str 0⟩, some 1, false⟩) rfl rfl rfl hs h1, hu, .next (n := ⟨⟨0, .str 0⟩, some 1, false⟩) rfl rfl rfl .here (.apart h1 hu)⟩

example : putChar "ab" 1 90 = "aZ" := by rfl

end Pscm
