import Verif.EqLemmas
import Verif.ListProps
/-!
# Properties C20–C22: equality

`Denotes dots h v t` (`EqSpec`) says which abstract tree a value denotes, as observed through `car`, `cdr` and the
vector and string accessors.
-/
namespace Pscm
open Spec
variable (F : FArith)

/-- A heap with several representations: node 0-2 `(1 2 3)`; 3-4 the reader's `(1 . (2 3))` (sharing nodes 1, 2);
5-6 `(1 . 2)`; 7-8 `(1 2)`; vector 0 `#((1 2 3) "a")`; vector 1 `#((1 . (2 3)) "a")` with another string. -/
def exEqH : Heap where
  nodes := [⟨exNum 1, some 1, false⟩, ⟨exNum 2, some 2, false⟩, ⟨exNum 3, none, false⟩,
    ⟨exNum 1, some 4, false⟩, ⟨⟨50, .list 1⟩, none, true⟩,
    ⟨exNum 1, some 6, false⟩, ⟨exNum 2, none, true⟩,
    ⟨exNum 1, some 8, false⟩, ⟨exNum 2, none, false⟩]
  vecs := [[⟨60, .list 0⟩, ⟨70, .str 0⟩], [⟨61, .list 3⟩, ⟨71, .str 1⟩]]
  strs := [[97], [97]]
  nextId := 5000

/-- The tree `(1 2 3)`. -/
def exT123 : Tree := .cons (.int 1) (.cons (.int 2) (.cons (.int 3) .nil))

theorem exEq_0 (d : Bool) : Denotes d exEqH (.list 0) exT123 :=
  .pairNext 0 1 _ _ _ _ rfl rfl rfl rfl (.int 1)
    (.pairNext 1 2 _ _ _ _ rfl rfl rfl rfl (.int 2) (.pairLast 2 _ _ rfl rfl (.int 3)))

theorem exEq_3 : Denotes true exEqH (.list 3) exT123 :=
  .pairDot 3 4 _ _ _ _ rfl rfl rfl rfl rfl (.int 1)
    (.pairNext 1 2 _ _ _ _ rfl rfl rfl rfl (.int 2) (.pairLast 2 _ _ rfl rfl (.int 3)))

theorem exEq_5 : Denotes true exEqH (.list 5) (.cons (.int 1) (.int 2)) :=
  .pairDot 5 6 _ _ _ _ rfl rfl rfl rfl rfl (.int 1) (.int 2)

theorem exEq_7 (d : Bool) : Denotes d exEqH (.list 7) (.cons (.int 1) (.cons (.int 2) .nil)) :=
  .pairNext 7 8 _ _ _ _ rfl rfl rfl rfl (.int 1) (.pairLast 8 _ _ rfl rfl (.int 2))

theorem exEq_v0 : Denotes true exEqH (.vec 0) (.vec [exT123, .str [97]]) :=
  .vec 0 _ _ rfl (.cons _ _ _ _ (exEq_0 true) (.cons _ _ _ _ (.str 0 _ rfl (by decide)) .nil))

theorem exEq_v1 : Denotes true exEqH (.vec 1) (.vec [exT123, .str [97]]) :=
  .vec 1 _ _ rfl (.cons _ _ _ _ exEq_3 (.cons _ _ _ _ (.str 1 _ rfl (by decide)) .nil))

/-! ## C20 — `equal?` is structural equality -/

/-- C20: on (acyclic) data, `(equal? a b)` returns, and it returns true exactly when `a` and `b` denote the same
tree, however the pairs are represented. -/
theorem c20_equal (h : Heap) (a b : Obj) (t u : Tree) (ha : Denotes true h a.v t) (hb : Denotes true h b.v u) :
    ∃ r N, (r = true ↔ t = u) ∧ ∀ fuel, N ≤ fuel → equalP F h fuel a b = .ok r := by
  obtain ⟨N, r, hr, hN⟩ := (equalRec_settles F (h := h) (sizeOf t) t (Nat.le_refl _)).1 a b u ha hb
  exact ⟨r, N, hr, hN⟩

/-- Two vectors built differently denote the same tree, hence are `equal?`. -/
example : Denotes true exEqH (⟨1, .vec 0⟩ : Obj).v (.vec [exT123, .str [97]]) ∧
    Denotes true exEqH (⟨2, .vec 1⟩ : Obj).v (.vec [exT123, .str [97]]) ∧
    equalP exampleF' exEqH 20 ⟨1, .vec 0⟩ ⟨2, .vec 1⟩ = .ok true ∧
    equalP exampleF' exEqH 20 ⟨1, .list 5⟩ ⟨2, .list 7⟩ = .ok false :=
  ⟨exEq_v0, exEq_v1, by decide, by decide⟩

/-- C20: consequently `equal?` is an equivalence relation on such data. -/
theorem c20_equivalence (h : Heap) (a b c : Obj) (t u v : Tree) (ha : Denotes true h a.v t)
    (hb : Denotes true h b.v u) (hc : Denotes true h c.v v) :
    ∃ N, ∀ fuel, N ≤ fuel →
      equalP F h fuel a a = .ok true ∧
      equalP F h fuel a b = equalP F h fuel b a ∧
      (equalP F h fuel a b = .ok true → equalP F h fuel b c = .ok true → equalP F h fuel a c = .ok true) := by
  obtain ⟨r1, N1, e1, k1⟩ := c20_equal F h a a t t ha ha
  obtain ⟨r2, N2, e2, k2⟩ := c20_equal F h a b t u ha hb
  obtain ⟨r3, N3, e3, k3⟩ := c20_equal F h b a u t hb ha
  obtain ⟨r4, N4, e4, k4⟩ := c20_equal F h b c u v hb hc
  obtain ⟨r5, N5, e5, k5⟩ := c20_equal F h a c t v ha hc
  refine ⟨N1 + N2 + N3 + N4 + N5, fun fuel hf => ?_⟩
  rw [k1 fuel (by omega), k2 fuel (by omega), k3 fuel (by omega), k4 fuel (by omega), k5 fuel (by omega)]
  refine ⟨by simp [e1.2 rfl], ?_, ?_⟩
  · have : r2 = r3 := by rw [Bool.eq_iff_iff, e2, e3]; exact eq_comm
    rw [this]
  · intro h1 h2
    simp at h1 h2
    rw [e5.2 ((e2.1 h1).trans (e4.1 h2))]

example : ∃ t u v, Denotes true exEqH (⟨1, .list 0⟩ : Obj).v t ∧ Denotes true exEqH (⟨2, .list 3⟩ : Obj).v u ∧
    Denotes true exEqH (⟨3, .vec 0⟩ : Obj).v v := ⟨_, _, _, exEq_0 true, exEq_3, exEq_v0⟩

/-! ## C21 — `eq?` ⇒ `eqv?` ⇒ `equal?` -/

/-- C21: `eq?` implies `eqv?`, `eqv?` implies `equal?` (for any positive fuel, so also on circular data), and the
three are reflexive. No assumption on the objects. -/
theorem c21_chain (h : Heap) (a b : Obj) (fuel : Nat) :
    (eqP F h a b = .ok true → eqvP F h a b = .ok true) ∧
    (eqvP F h a b = .ok true → equalP F h (fuel + 1) a b = .ok true) ∧
    eqP F h a a = .ok true ∧ eqvP F h a a = .ok true ∧ equalP F h (fuel + 1) a a = .ok true := by
  refine ⟨fun hh => hh, fun hh => ?_, by simp [eqP], by simp [eqvP], by simp [equalP, equalRec]⟩
  unfold equalP equalRec
  unfold eqvP at hh
  split
  · rfl
  · rename_i hab
    rw [if_neg hab] at hh
    split
    · rename_i hty; rw [if_pos hty] at hh; exact hh
    · rename_i hty
      rw [if_neg hty] at hh
      cases hav : a.v <;> cases hbv : b.v <;> simp_all [Val.ty]

example : eqP exampleF' exEqH (exNum 4) ⟨9, .num 4⟩ = .ok true ∧ eqvP exampleF' exEqH ⟨1, .chr 65⟩ ⟨2, .chr 65⟩ = .ok true ∧
    eqP exampleF' exEqH ⟨1, .list 0⟩ ⟨2, .list 0⟩ = .ok false := by decide

/-- C21, the converse fails as it should: two different records for structurally equal lists are `equal?` and not
`eqv?`. -/
theorem c21_strict : eqvP F exEqH ⟨1, .list 0⟩ ⟨2, .list 0⟩ = .ok false ∧
    equalP F exEqH 20 ⟨1, .list 0⟩ ⟨2, .list 0⟩ = .ok true := by
  refine ⟨by simp [eqvP, Val.ty], ?_⟩
  rfl

/-! ## C22 — the comparison used by `member`, `assoc`, `case` and hash tables -/

/-- C22 (partial): on data whose lists are all proper and stored without dotted nodes, the library comparison and
`equal?` both return and agree: they decide equality of the denoted trees.  Missing: data with dotted pairs
(`c22_counterexample`) and the object types on which it raises an error (`c22_error`). -/
theorem c22_agree_partial (h : Heap) (a b : Obj) (t u : Tree) (ha : Denotes false h a.v t)
    (hb : Denotes false h b.v u) :
    ∃ r N, (r = true ↔ t = u) ∧
      ∀ fuel, N ≤ fuel → legacyEq F h fuel a b = .ok r ∧ equalP F h fuel a b = .ok r := by
  obtain ⟨N, r, hr, hN⟩ := (legacy_settles F (h := h) (sizeOf t) t (Nat.le_refl _)).1 a b u ha hb
  obtain ⟨r', M, hr', hM⟩ := c20_equal F h a b t u ha.weaken hb.weaken
  have : r' = r := by rw [Bool.eq_iff_iff, hr, hr']
  subst this
  exact ⟨r', N + M, hr, fun fuel hf => ⟨hN fuel (by omega), hM fuel (by omega)⟩⟩

example : Denotes false exEqH (⟨1, .list 0⟩ : Obj).v exT123 ∧
    Denotes false exEqH (⟨2, .list 7⟩ : Obj).v (.cons (.int 1) (.cons (.int 2) .nil)) ∧
    legacyEq exampleF' exEqH 20 ⟨1, .list 0⟩ ⟨2, .list 7⟩ = .ok false ∧
    legacyEq exampleF' exEqH 20 ⟨1, .list 0⟩ ⟨2, .list 0⟩ = .ok true := ⟨exEq_0 _, exEq_7 _, by decide, by decide⟩

/-- C22 is false in general, in both directions: `'(1 . 2)` and `'(1 2)` are not `equal?` but are the same for
`member`; `'(1 . (2 3))` and `'(1 2 3)` are `equal?` but different for `member`. -/
theorem c22_counterexample :
    (equalP exampleF' exEqH 20 ⟨1, .list 5⟩ ⟨2, .list 7⟩ = .ok false ∧
      legacyEq exampleF' exEqH 20 ⟨1, .list 5⟩ ⟨2, .list 7⟩ = .ok true) ∧
    (equalP exampleF' exEqH 20 ⟨1, .list 3⟩ ⟨2, .list 0⟩ = .ok true ∧
      legacyEq exampleF' exEqH 20 ⟨1, .list 3⟩ ⟨2, .list 0⟩ = .ok false) := by decide

/-- C22: on ports, promises, modules, smobs and variables the library comparison raises a Scheme error (even for the
same object), where `equal?` answers. -/
theorem c22_error (h : Heap) (i j : Nat) (x y : Addr) (fuel : Nat) (k : OTy)
    (hk : k = .port ∨ k = .promise ∨ k = .module ∨ k = .smob ∨ k = .variable) :
    legacyEq F h (fuel + 1) ⟨i, .other k x⟩ ⟨j, .other k y⟩ = .err .evalError ∧
    equalP F h (fuel + 1) ⟨i, .other k x⟩ ⟨j, .other k y⟩ = .ok (decide (i = j ∧ x = y)) := by
  constructor
  · rcases hk with rfl | rfl | rfl | rfl | rfl <;> simp [legacyEq, Val.ty, numFloatMix]
  · simp only [equalP, equalRec, Obj.mk.injEq, Val.other.injEq, true_and, Val.ty]
    by_cases hij : i = j ∧ x = y <;> simp [hij]

example : ((.port : OTy) = .port ∨ OTy.port = .promise ∨ OTy.port = .module ∨ OTy.port = .smob ∨ OTy.port = .variable) :=
  by decide

end Pscm
