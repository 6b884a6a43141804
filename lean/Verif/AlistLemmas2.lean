import Verif.AlistLemmas
/-! # Association lists: specification of lookups, and further lemmas -/
namespace Pscm
open Spec

namespace Spec
/-- The element `e` is a pair whose car is `eq?`-the same key, in the sense of `assq`: the same object, the same
symbol name, the same string object, or the same exact integer. -/
def SameKeyQ (a b : Obj) : Prop :=
  a = b ∨ (∃ s, a.v = .sym s ∧ b.v = .sym s) ∨ (∃ x, a.v = .str x ∧ b.v = .str x) ∨ (∃ n, a.v = .num n ∧ b.v = .num n)

/-- `e` is a pair whose car is the object `k`. -/
def HasKey (h : Heap) (e k : Obj) : Prop := ∃ a n, e.v = .list a ∧ h.nodes[a]? = some n ∧ n.data = k

/-- `e` is a pair whose car denotes the tree `t`. -/
def KeyDenotes (h : Heap) (e : Obj) (t : Tree) : Prop := ∃ k, HasKey h e k ∧ Denotes false h k.v t

/-- The keys of all pairs among the elements are data with proper lists. -/
def DataKeys (h : Heap) (xs : List Obj) : Prop := ∀ e ∈ xs, ∀ a, e.v = .list a → ∃ t, KeyDenotes h e t

/-- `r` is the first element of `xs` with property `P`, or `#f` when there is none. -/
def FirstOrFalse (P : Obj → Prop) (xs : List Obj) (r : Obj) : Prop :=
  (∃ pre post, xs = pre ++ r :: post ∧ P r ∧ ∀ e ∈ pre, ¬ P e) ∨ ((∀ e ∈ xs, ¬ P e) ∧ r = Obj.f)
end Spec

theorem assqEq_iff (a b : Obj) : assqEq a b = true ↔ SameKeyQ a b := by
  unfold assqEq SameKeyQ
  by_cases hab : a = b
  · simp [hab]
  · simp only [hab, if_false, false_or]
    cases hav : a.v <;> cases hbv : b.v <;> simp <;> constructor <;> intro h <;> simp_all

theorem find_first {P : Obj → Prop} {p : Obj → Bool} : ∀ {xs : List Obj}, (∀ e ∈ xs, (p e = true ↔ P e)) →
    FirstOrFalse P xs ((xs.find? p).getD Obj.f)
  | [], _ => .inr ⟨by simp, rfl⟩
  | x :: xs, hp => by
    by_cases hx : p x = true
    · refine .inl ⟨[], xs, by simp [hx], ?_, by simp⟩
      simp [hx]; exact (hp x (by simp)).1 hx
    · have hnx : ¬ P x := fun h => hx ((hp x (by simp)).2 h)
      have : (x :: xs).find? p = xs.find? p := by simp [hx]
      rw [this]
      rcases find_first (P := P) (p := p) (xs := xs) (fun e he => hp e (by simp [he])) with ⟨pre, post, e, h1, h2⟩ | ⟨h1, h2⟩
      · refine .inl ⟨x :: pre, post, by simp only [List.cons_append, ← e], h1, ?_⟩
        intro y hy
        rcases List.mem_cons.1 hy with rfl | hy
        · exact hnx
        · exact h2 y hy
      · refine .inr ⟨?_, h2⟩
        intro y hy
        rcases List.mem_cons.1 hy with rfl | hy
        · exact hnx
        · exact h1 y hy

theorem matchE_iff {h : Heap} {mt : Obj → Bool} {e : Obj} : matchE h mt e = true ↔ ∃ k, HasKey h e k ∧ mt k = true := by
  unfold matchE entryKey HasKey
  cases hv : e.v with
  | list a =>
    cases hn : h.nodes[a]? with
    | none => simp [hn]
    | some n => simp [hn]
  | _ => simp

theorem assq_testOk {h : Heap} {xs key} (hx : EntriesExist h xs) :
    ∀ e ∈ xs, TestOk h (fun _ k => .ok (assqEq key k)) (assqEq key) e := by
  intro e he a hv
  have := hx e he a hv
  exact ⟨h.nodes[a], by simp [this], fun _ _ => rfl⟩

section
variable (F : FArith)

/-- The comparison of `assoc` on data keys, for all large fuel and all later heaps; `k2` is one more key. -/
theorem assoc_testOk {h : Heap} {xs : List Obj} {key k2 : Obj} {kt t2 : Tree} (hk : Denotes false h key.v kt) (hx : DataKeys h xs)
    (hk2 : Denotes false h k2.v t2) :
    ∃ N, ∀ fuel, N ≤ fuel → ∃ mt : Obj → Bool,
      (∀ e ∈ xs, TestOk h (fun h' k => legacyEq F h' fuel key k) mt e) ∧
      (∀ e ∈ xs, (matchE h mt e = true ↔ KeyDenotes h e kt)) ∧
      (∀ h', Ext h h' → legacyEq F h' fuel key k2 = .ok (mt k2)) ∧ (mt k2 = true ↔ kt = t2) := by
  have hb : ∀ e ∈ k2 :: xs.filterMap (entryKey h), ∃ N, ∀ f, N ≤ f → ∃ r, legacyEq F h f key e = .ok r ∧
      ∀ t, Denotes false h e.v t → (r = true ↔ kt = t) := by
    intro k hkm
    have : ∃ t, Denotes false h k.v t := by
      rcases List.mem_cons.1 hkm with rfl | hkm
      · exact ⟨t2, hk2⟩
      · obtain ⟨e, he, hek⟩ := List.mem_filterMap.1 hkm
        unfold entryKey at hek
        cases hv : e.v with
        | list a =>
          obtain ⟨t, k', ⟨a', n, hv', hn, hd⟩, ht⟩ := hx e he a hv
          rw [hv] at hv'; cases hv'
          rw [hv] at hek
          simp only [hn, Option.map_some] at hek
          cases hek
          exact ⟨t, hd ▸ ht⟩
        | _ => rw [hv] at hek; cases hek
    obtain ⟨t, ht⟩ := this
    obtain ⟨N, r, hr, hN⟩ := (legacy_settles F (h := h) (sizeOf kt) kt (Nat.le_refl _)).1 key k t hk ht
    exact ⟨N, fun f hf => ⟨r, hN f hf, fun t' ht' => by rw [hr, ht'.det ht]⟩⟩
  obtain ⟨N, hN⟩ := uniform_bound _ _ hb
  refine ⟨N, fun fuel hf => ⟨fun k => decide (legacyEq F h fuel key k = .ok true), ?_, ?_, ?_, ?_⟩⟩
  · intro e he a hv
    obtain ⟨t, k, ⟨a', n, hv', hn, hd⟩, ht⟩ := hx e he a hv
    rw [hv] at hv'; cases hv'
    have hmem : n.data ∈ k2 :: xs.filterMap (entryKey h) := by
      refine List.mem_cons_of_mem _ (List.mem_filterMap.2 ⟨e, he, ?_⟩)
      simp [entryKey, hv, hn]
    obtain ⟨r, hr, -⟩ := hN fuel hf _ hmem
    refine ⟨n, hn, fun h' e' => ?_⟩
    show legacyEq F h' fuel key n.data = .ok (decide (legacyEq F h fuel key n.data = .ok true))
    rw [((legacy_ext F e' fuel).1 _ _ _ hr), hr]
    cases r <;> simp
  · intro e he
    rw [matchE_iff]
    constructor
    · rintro ⟨k, hkey, hm⟩
      obtain ⟨a, n, hv, hn, rfl⟩ := hkey
      obtain ⟨t, k, hkd, ht⟩ := hx e he a hv
      obtain ⟨a', n', hv', hn', rfl⟩ := hkd
      rw [hv] at hv'; cases hv'
      rw [hn] at hn'; cases hn'
      have hmem : n.data ∈ k2 :: xs.filterMap (entryKey h) := by
        refine List.mem_cons_of_mem _ (List.mem_filterMap.2 ⟨e, he, ?_⟩)
        simp [entryKey, hv, hn]
      obtain ⟨r, hr, hrt⟩ := hN fuel hf _ hmem
      rw [hr] at hm
      simp at hm
      have := (hrt t ht).1 hm
      exact ⟨n.data, ⟨a, n, hv, hn, rfl⟩, this ▸ ht⟩
    · rintro ⟨k, hkey, ht⟩
      refine ⟨k, hkey, ?_⟩
      obtain ⟨a, n, hv, hn, rfl⟩ := hkey
      have hmem : n.data ∈ k2 :: xs.filterMap (entryKey h) := by
        refine List.mem_cons_of_mem _ (List.mem_filterMap.2 ⟨e, he, ?_⟩)
        simp [entryKey, hv, hn]
      obtain ⟨r, hr, hrt⟩ := hN fuel hf _ hmem
      rw [hr, (hrt kt ht).2 rfl]
      simp
  · intro h' e'
    obtain ⟨r, hr, hrt⟩ := hN fuel hf k2 (by simp)
    show _ = Res.ok (decide (legacyEq F h fuel key k2 = .ok true))
    rw [(legacy_ext F e' fuel).1 _ _ _ hr, hr]
    cases r <;> simp
  · obtain ⟨r, hr, hrt⟩ := hN fuel hf k2 (by simp)
    show decide (legacyEq F h fuel key k2 = .ok true) = true ↔ _
    rw [hr, ← hrt t2 hk2]
    cases r <;> simp

end

theorem Spec.DataKeys.exist {h xs} (hx : DataKeys h xs) : EntriesExist h xs := by
  intro e he a hv
  obtain ⟨t, k, ⟨a', n, hv', hn, -⟩, -⟩ := hx e he a hv
  rw [hv] at hv'; cases hv'
  exact getElem?_lt hn

theorem Spec.PlainPairOf.hasKey {h p k v} (hp : PlainPairOf h p k v) : HasKey h p k := by
  obtain ⟨a, n, h1, h2, h3, -⟩ := hp
  exact ⟨a, n, h1, h2, h3⟩

theorem Spec.HasKey.ext {h h' e k} (he : Ext h h') (hk : HasKey h e k) : HasKey h' e k := by
  obtain ⟨a, n, h1, h2, h3⟩ := hk
  exact ⟨a, n, h1, he.get h2, h3⟩

theorem Spec.HasKey.det {h e k k'} (h1 : HasKey h e k) (h2 : HasKey h e k') : k = k' := by
  obtain ⟨a, n, e1, e2, rfl⟩ := h1
  obtain ⟨b, m, f1, f2, rfl⟩ := h2
  rw [e1] at f1; cases f1; rw [e2] at f2; cases f2; rfl

/-- Lookup of another key is unaffected by the replacement. -/
theorem set_find_other {h h' : Heap} {mt mt' : Obj → Bool} {key value : Obj} (hk : mt' key = false) :
    ∀ {xs zs : List Obj}, Rel2 (SetRel h mt key value h') xs zs →
      (∀ e ∈ xs, matchE h mt e = true → matchE h mt' e = false) → (∀ e ∈ xs, matchE h' mt' e = matchE h mt' e) →
      zs.find? (matchE h' mt') = xs.find? (matchE h mt')
  | [], [], _, _, _ => rfl
  | [], _ :: _, hr, _, _ => by simp [Rel2] at hr
  | x :: xs, [], hr, _, _ => by simp [Rel2] at hr
  | x :: xs, z :: zs, ⟨hr, hrs⟩, hex, hsame => by
    have ih := set_find_other hk hrs (fun e he => hex e (by simp [he])) (fun e he => hsame e (by simp [he]))
    by_cases hm : matchE h mt x = true
    · unfold SetRel at hr
      rw [if_pos hm] at hr
      have h1 : matchE h' mt' z = false := by
        rw [Bool.eq_false_iff]
        intro hh
        obtain ⟨k, hkk, hkt⟩ := matchE_iff.1 hh
        rw [← hr.1.hasKey.det hkk, hk] at hkt
        cases hkt
      simp [h1, hex x (by simp) hm, ih]
    · unfold SetRel at hr
      rw [if_neg hm] at hr
      subst hr
      simp [List.find?_cons, hsame z (by simp), ih]

theorem matchE_ext {h h' : Heap} (he : Ext h h') {mt : Obj → Bool} {e : Obj} (hx : ∀ a, e.v = .list a → a < h.nodes.length) :
    matchE h' mt e = matchE h mt e := by
  unfold matchE entryKey
  cases hv : e.v with
  | list a => simp only [he.nodes a (hx a hv)]
  | _ => rfl

/-- After a set operation with comparison `mt`: a lookup with comparison `mt'`, in the result. -/
theorem set_lookup {h h' : Heap} {mt mt' : Obj → Bool} {key value : Obj} {xs zs : List Obj} (he : Ext h h')
    (hx : EntriesExist h xs)
    (hres : (xs.any (matchE h mt) = true ∧ Rel2 (SetRel h mt key value h') xs zs) ∨
       (xs.any (matchE h mt) = false ∧ ∃ p, PlainPairOf h' p key value ∧ (∃ a, p.v = .list a ∧ h.nodes.length ≤ a) ∧ zs = p :: xs)) :
    (mt' key = true → (∀ e ∈ xs, matchE h mt e = false → matchE h mt' e = false) →
      ∃ p, zs.find? (matchE h' mt') = some p ∧ PlainPairOf h' p key value) ∧
    (mt' key = false → (∀ e ∈ xs, matchE h mt e = true → matchE h mt' e = false) →
      zs.find? (matchE h' mt') = xs.find? (matchE h mt')) := by
  have hsame : ∀ e ∈ xs, matchE h' mt' e = matchE h mt' e := fun e hxe => matchE_ext he (hx e hxe)
  rcases hres with ⟨ha, hr⟩ | ⟨ha, p, hp, -, rfl⟩
  · refine ⟨fun hk hn => ?_, fun hk hn => set_find_other hk hr hn hsame⟩
    -- direct induction
    clear hx
    induction xs generalizing zs with
    | nil => simp at ha
    | cons x xs ih =>
      cases zs with
      | nil => simp [Rel2] at hr
      | cons z zs =>
        obtain ⟨hr1, hrs⟩ := hr
        by_cases hm : matchE h mt x = true
        · unfold SetRel at hr1
          rw [if_pos hm] at hr1
          have : matchE h' mt' z = true := matchE_iff.2 ⟨key, hr1.1.hasKey, hk⟩
          exact ⟨z, by simp [this], hr1.1⟩
        · unfold SetRel at hr1
          rw [if_neg hm] at hr1
          subst hr1
          have hzf : matchE h' mt' z = false := by
            rw [hsame z (by simp)]; exact hn z (by simp) (by simpa using hm)
          simp [hm] at ha
          obtain ⟨p, h1, h2⟩ := ih (fun e he => hsame e (by simp [he])) (by simpa using ha) hrs (fun e he => hn e (by simp [he]))
          exact ⟨p, by simp [hzf, h1], h2⟩
  · refine ⟨fun hk _ => ⟨p, ?_, hp⟩, fun hk _ => ?_⟩
    · have : matchE h' mt' p = true := matchE_iff.2 ⟨key, hp.hasKey, hk⟩
      simp [this]
    · have : matchE h' mt' p = false := by
        rw [Bool.eq_false_iff]
        intro hh
        obtain ⟨k, hkk, hkt⟩ := matchE_iff.1 hh
        rw [← hp.hasKey.det hkk, hk] at hkt
        cases hkt
      rw [List.find?_cons, this]
      have : ∀ (ys : List Obj), (∀ e ∈ ys, matchE h' mt' e = matchE h mt' e) → ys.find? (matchE h' mt') = ys.find? (matchE h mt') := by
        intro ys
        induction ys with
        | nil => intro _; rfl
        | cons y ys ih =>
          intro hy
          simp [List.find?_cons, hy y (by simp), ih (fun e he => hy e (by simp [he]))]
      exact this xs hsame


theorem Rel2.length {α β : Type} {R : α → β → Prop} : ∀ {xs : List α} {zs : List β}, Rel2 R xs zs → zs.length = xs.length
  | [], [], _ => rfl
  | [], _ :: _, h => by simp [Rel2] at h
  | _ :: _, [], h => by simp [Rel2] at h
  | _ :: xs, _ :: zs, h => by simp [Rel2.length h.2]

/-- Facts about every result of a set operation. -/
theorem set_facts {h h' : Heap} {mt : Obj → Bool} {key value : Obj} {xs zs : List Obj} (ex : Ext h h')
    (hx : EntriesExist h xs)
    (hres : (xs.any (matchE h mt) = true ∧ Rel2 (SetRel h mt key value h') xs zs) ∨
       (xs.any (matchE h mt) = false ∧ ∃ p, PlainPairOf h' p key value ∧ (∃ a, p.v = .list a ∧ h.nodes.length ≤ a) ∧ zs = p :: xs)) :
    zs.length ≤ xs.length + 1 ∧ EntriesExist h' zs ∧
    ∀ z ∈ zs, PlainPairOf h' z key value ∨ z ∈ xs := by
  have hmem : ∀ {xs zs : List Obj}, Rel2 (SetRel h mt key value h') xs zs → ∀ z ∈ zs, PlainPairOf h' z key value ∨ z ∈ xs := by
    intro xs
    induction xs with
    | nil => intro zs hr; cases zs <;> simp_all [Rel2]
    | cons x xs ih =>
      intro zs hr
      cases zs with
      | nil => simp [Rel2] at hr
      | cons z zs =>
        intro y hy
        rcases List.mem_cons.1 hy with rfl | hy
        · have hr1 := hr.1
          unfold SetRel at hr1
          split at hr1
          · exact .inl hr1.1
          · exact .inr (by simp [hr1])
        · rcases ih hr.2 y hy with hh | hh
          · exact .inl hh
          · exact .inr (by simp [hh])
  have hall : ∀ z ∈ zs, PlainPairOf h' z key value ∨ z ∈ xs := by
    rcases hres with ⟨-, hr⟩ | ⟨-, p, hp, -, rfl⟩
    · exact hmem hr
    · intro z hz
      rcases List.mem_cons.1 hz with rfl | hz
      · exact .inl hp
      · exact .inr hz
  refine ⟨?_, ?_, hall⟩
  · rcases hres with ⟨-, hr⟩ | ⟨-, p, -, -, rfl⟩
    · rw [hr.length]; omega
    · simp
  · intro e he a hv
    rcases hall e he with ⟨b, m, k1, k2, -⟩ | hm
    · rw [hv] at k1; cases k1
      exact getElem?_lt k2
    · exact Nat.lt_of_lt_of_le (hx e hm a hv) ex.len

/-- The comparison on the elements of the result of a set operation. -/
theorem set_testOk {h h' : Heap} {test : Heap → Obj → Res Bool} {mt : Obj → Bool} {key value : Obj} {xs zs : List Obj} (ex : Ext h h')
    (ht : ∀ e ∈ xs, TestOk h test mt e) (hkey : ∀ h'', Ext h h'' → test h'' key = .ok (mt key))
    (hall : ∀ z ∈ zs, PlainPairOf h' z key value ∨ z ∈ xs) : ∀ z ∈ zs, TestOk h' test mt z := by
  intro z hz a hv
  rcases hall z hz with ⟨b, m, k1, k2, k3, -⟩ | hm
  · rw [hv] at k1; cases k1
    exact ⟨m, k2, fun h'' e'' => by rw [k3]; exact hkey h'' (ex.trans e'')⟩
  · obtain ⟨n, hn, hk⟩ := ht z hm a hv
    exact ⟨n, ex.get hn, fun h'' e'' => hk h'' (ex.trans e'')⟩

theorem mem_dropFirst {p : Obj → Bool} : ∀ {xs : List Obj} {z}, z ∈ dropFirst p xs → z ∈ xs
  | [], z, h => by simp [dropFirst] at h
  | x :: xs, z, h => by
    unfold dropFirst at h
    split at h
    · simp [h]
    · rcases List.mem_cons.1 h with rfl | h
      · simp
      · simp [mem_dropFirst h]

theorem length_dropFirst {p : Obj → Bool} : ∀ (xs : List Obj), (dropFirst p xs).length ≤ xs.length
  | [] => by simp [dropFirst]
  | x :: xs => by
    unfold dropFirst
    split
    · simp
    · simp [length_dropFirst xs]

theorem find_dropFirst {p q : Obj → Bool} : ∀ {xs : List Obj}, (∀ e ∈ xs, p e = true → q e = false) →
    (dropFirst p xs).find? q = xs.find? q
  | [], _ => rfl
  | x :: xs, hx => by
    unfold dropFirst
    split
    · rename_i hp
      simp [hx x (by simp) hp]
    · simp [List.find?_cons, find_dropFirst (xs := xs) (fun e he => hx e (by simp [he]))]

end Pscm
