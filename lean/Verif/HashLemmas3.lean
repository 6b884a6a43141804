import Verif.HashLemmas2
/-! # The three key families satisfy the requirements -/
namespace Pscm
open Spec

theorem famQ_good (addr : Nat → Nat) (h0 : Heap) :
    GoodFam (famQ addr) h0 (fun _ => True) qKey (fun c => match c with | .name s => hashBytes s | .obj o => addr o.id % 2 ^ 64) := by
  constructor
  · intro h _ k _
    simp only [famQ, hashEq, qKey]
    cases hk : k.v <;> rfl
  · rintro h _ ⟨i, va⟩ ⟨j, vb⟩ _ _
    cases va <;> cases vb <;> simp [famQ, cmpEq, qKey]
    rename_i s t
    by_cases hst : s = t <;> simp [hst]

theorem famV_good (addr : Nat → Nat) (h0 : Heap) :
    GoodFam (famV addr) h0 (fun _ => True) vKey (fun c => match c with
      | .int n => toU64 n | .chr c => c.toNat | .bool b => if b then 1 else 0 | .obj o => hashEq addr o) := by
  constructor
  · intro h _ k _
    simp only [famV, hashEqv, vKey]
    cases hk : k.v <;> rfl
  · rintro h _ ⟨i, va⟩ ⟨j, vb⟩ _ _
    cases va <;> cases vb <;> simp [famV, cmpEqv, vKey, Val.ty] <;> grind

/-- The hash code computed from the denoted tree: as an element, and as a chain with a given accumulator. -/
def hashTree (addr : Nat → Nat) : Tree → Nat × (Nat → Nat)
  | .nil => (addr 0 % 2 ^ 64, id)
  | .int n => (toU64 n, id)
  | .bool b => (addr (if b then 1 else 2) % 2 ^ 64, id)
  | .chr _ => (0, id)
  | .sym s => (hashBytes s, id)
  | .str s => (hashBytes s, id)
  | .vec _ => (0, id)
  | .cons a d =>
    let x := (hashTree addr a).1
    let f := (hashTree addr d).2
    (f ((0 * 31 + x) % 2 ^ 64), fun acc => f ((acc * 31 + x) % 2 ^ 64))

theorem hashList_succ (addr : Nat → Nat) (h : Heap) (fuel : Nat) (a : Addr) (acc : Nat) {n : Node} (hn : h.nodes[a]? = some n) :
    hashList addr h (fuel + 1) (some a) acc =
      (do let c ← hashEqual addr h fuel n.data; hashList addr h fuel n.next ((acc * 31 + c) % 2 ^ 64)) := by
  simp only [hashList, node?, hn, hashEqual, Res.bind_ok]
  cases hd : n.data.v with
  | str x => cases hs : h.strs[x]? <;> simp [hs]
  | _ => simp [hashEq, hd]

theorem hash_settles (addr : Nat → Nat) {h : Heap} {o : Obj} {t : Tree} (hk : KeyData h o t) :
    (∃ N, ∀ fuel, N ≤ fuel → hashEqual addr h fuel o = .ok (hashTree addr t).1) ∧
    (∀ a, o.v = .list a → ∃ N, ∀ fuel, N ≤ fuel → ∀ acc, hashList addr h fuel (some a) acc = .ok ((hashTree addr t).2 acc)) := by
  induction hk with
  | nil => exact ⟨⟨0, fun _ _ => rfl⟩, fun a ha => by cases ha⟩
  | t => exact ⟨⟨0, fun _ _ => rfl⟩, fun a ha => by cases ha⟩
  | f => exact ⟨⟨0, fun _ _ => rfl⟩, fun a ha => by cases ha⟩
  | int i n => exact ⟨⟨0, fun _ _ => rfl⟩, fun a ha => by cases ha⟩
  | sym i s _ => exact ⟨⟨0, fun _ _ => rfl⟩, fun a ha => by cases ha⟩
  | str i a s hs _ => exact ⟨⟨0, fun _ _ => by simp [hashEqual, hs, hashTree]⟩, fun a ha => by cases ha⟩
  | last i a n t hn hnx hd ih =>
    obtain ⟨⟨N, hN⟩, -⟩ := ih
    have key : ∀ fuel, N + 2 ≤ fuel → ∀ acc, hashList addr h fuel (some a) acc = .ok ((hashTree addr (.cons t .nil)).2 acc) := by
      intro fuel hf acc
      obtain ⟨f, rfl⟩ : ∃ f, fuel = f + 1 + 1 := ⟨fuel - 2, by omega⟩
      rw [hashList_succ addr h (f + 1) a acc hn, hN (f + 1) (by omega), hnx]
      simp [hashList, hashTree]
    refine ⟨⟨N + 2, fun fuel hf => ?_⟩, fun b hb => ⟨N + 2, fun fuel hf acc => ?_⟩⟩
    · simp only [hashEqual]
      rw [key fuel hf 0]; rfl
    · cases hb; exact key fuel hf acc
  | next i a b n m t u hn hnx hm hmd hd hu ih1 ih2 =>
    obtain ⟨⟨N, hN⟩, -⟩ := ih1
    obtain ⟨-, h2⟩ := ih2
    obtain ⟨M, hM⟩ := h2 b rfl
    have key : ∀ fuel, N + M + 1 ≤ fuel → ∀ acc, hashList addr h fuel (some a) acc = .ok ((hashTree addr (.cons t u)).2 acc) := by
      intro fuel hf acc
      obtain ⟨f, rfl⟩ : ∃ f, fuel = f + 1 := ⟨fuel - 1, by omega⟩
      rw [hashList_succ addr h f a acc hn, hN f (by omega), hnx]
      simp only [Res.bind_ok]
      rw [hM f (by omega)]
      rfl
    refine ⟨⟨N + M + 1, fun fuel hf => ?_⟩, fun b hb => ⟨N + M + 1, fun fuel hf acc => ?_⟩⟩
    · simp only [hashEqual]
      rw [key fuel hf 0]; rfl
    · cases hb; exact key fuel hf acc

theorem hash_ext (addr : Nat → Nat) {h h' : Heap} (he : Ext h h') : ∀ fuel,
    (∀ o r, hashEqual addr h fuel o = .ok r → hashEqual addr h' fuel o = .ok r) ∧
    (∀ p acc r, hashList addr h fuel p acc = .ok r → hashList addr h' fuel p acc = .ok r) := by
  intro fuel
  induction fuel with
  | zero =>
    constructor
    · intro o r hr
      cases hv : o.v <;> simp only [hashEqual, hv, he.strs] at hr ⊢ <;> first | exact hr | (simp [hashList] at hr)
    · intro p acc r hr; simp [hashList] at hr
  | succ fuel ih =>
    have hl : ∀ p acc r, hashList addr h (fuel + 1) p acc = .ok r → hashList addr h' (fuel + 1) p acc = .ok r := by
      intro p acc r hr
      cases p with
      | none => exact hr
      | some a =>
        cases hn : h.nodes[a]? with
        | none => simp [hashList, node?, hn] at hr
        | some n =>
          rw [hashList_succ addr h fuel a acc hn] at hr
          rw [hashList_succ addr h' fuel a acc (he.get hn)]
          obtain ⟨c, hc, hr⟩ := Res.bind_eq_ok.1 hr
          rw [ih.1 _ _ hc]
          exact ih.2 _ _ _ hr
    refine ⟨?_, hl⟩
    intro o r hr
    cases hv : o.v with
    | list a => simp only [hashEqual, hv] at hr ⊢; exact hl _ _ _ hr
    | str a => simp only [hashEqual, hv, he.strs] at hr ⊢; exact hr
    | _ => simp only [hashEqual, hv] at hr ⊢; exact hr

theorem Spec.KeyData.denotes {h : Heap} {o : Obj} {t : Tree} (hk : KeyData h o t) : Denotes false h o.v t := by
  induction hk with
  | nil => exact .nil
  | t => exact .bool _
  | f => exact .bool _
  | int i n => exact .int n
  | sym i s hs => exact .sym s hs
  | str i a s hs hz => exact .str a s hs hz
  | last i a n t hn hnx hd ih => exact .pairLast a n t hn hnx ih
  | next i a b n m t u hn hnx hm hmd hd hu ih1 ih2 => exact .pairNext a b n m t u hn hnx hm hmd ih1 ih2

/-- On finitely many keys made of integers, strings, symbols, `()`, `#t`, `#f` and proper lists of them, the `hash-…`
family compares denoted data, with enough fuel. -/
theorem famE_good (F : FArith) (addr : Nat → Nat) (h0 : Heap) (ks : List Obj) (cls : Obj → Tree) [DecidableEq Tree]
    (hks : ∀ k ∈ ks, KeyData h0 k (cls k)) :
    ∃ N, ∀ fuel, N ≤ fuel → GoodFam (famE F addr fuel) h0 (· ∈ ks) cls (fun t => (hashTree addr t).1) := by
  obtain ⟨N1, h1⟩ := uniform_bound (fun k f => hashEqual addr h0 f k = .ok (hashTree addr (cls k)).1) ks
    (fun k hk => (hash_settles addr (hks k hk)).1)
  obtain ⟨N2, h2⟩ := uniform_bound (fun k f => ∀ k' ∈ ks, legacyEq F h0 f k k' = .ok (decide (cls k = cls k'))) ks
    (fun k hk => uniform_bound (fun k' f => legacyEq F h0 f k k' = .ok (decide (cls k = cls k'))) ks (fun k' hk' => by
      obtain ⟨N, r, hr, hN⟩ := (legacy_settles F (h := h0) (sizeOf (cls k)) (cls k) (Nat.le_refl _)).1 k k' (cls k')
        (hks k hk).denotes (hks k' hk').denotes
      refine ⟨N, fun f hf => ?_⟩
      have : r = decide (cls k = cls k') := by rw [Bool.eq_iff_iff, hr]; simp
      rw [← this]
      exact hN f hf))
  refine ⟨N1 + N2, fun fuel hf => ⟨?_, ?_⟩⟩
  · intro h he k hk
    exact (hash_ext addr he fuel).1 k _ (h1 fuel (by omega) k hk)
  · intro h he k k' hk hk'
    exact (legacy_ext F he fuel).1 k k' _ (h2 fuel (by omega) k hk k' hk')

end Pscm
