import Verif.SrcLoc
/-! # Source locations: specification vocabulary and lemmas -/
namespace Pscm.Loc
open Rd

/-- The place an object is said to come from: file name, line, column. -/
def Place (h : H) (x : Nat) : Option (Option Bytes × Int × Int) :=
  (locOf h x).map fun l => (l.file.bind fun p => (h.strs[p]?).join, l.line, l.col)

/-- Every stored file name is allocated, and no two objects share one. -/
structure WF (h : H) : Prop where
  live : ∀ x l p, locOf h x = some l → l.file = some p → ∃ t, h.strs[p]? = some (some t)
  own : ∀ x y l m p, locOf h x = some l → locOf h y = some m → l.file = some p → m.file = some p → x = y

/-- `a` in the expansion stands at the place of `b` in the call. -/
inductive Paired (kids : Nat → List Nat) : Nat → Nat → Nat → Nat → Prop
  | here {d s} : Paired kids d s d s
  | kid {d s a b x y} : (a, b) ∈ (kids d).zip (kids s) → Paired kids a b x y → Paired kids d s x y

/-- The nesting depth of `s` is below `n`. -/
inductive Depth (kids : Nat → List Nat) : Nat → Nat → Prop
  | mk {s n} : (∀ b ∈ kids s, Depth kids b n) → Depth kids s (n + 1)

/-- `h'` differs from `h` in locations only. -/
structure Same (h h' : H) : Prop where
  len : h'.objs.length = h.objs.length
  kids : kidsOf h' = kidsOf h

theorem Same.refl (h : H) : Same h h := ⟨rfl, rfl⟩
theorem Same.trans {a b c : H} (x : Same a b) (y : Same b c) : Same a c := ⟨y.len.trans x.len, y.kids.trans x.kids⟩

theorem getElem?_modify' (l : List Obj) (i j : Nat) (f : Obj → Obj) :
    (l.modify i f)[j]? = if i = j then l[j]?.map f else l[j]? := by
  rw [List.getElem?_modify]
  by_cases h : i = j <;> simp [h]

theorem locOf_setLoc (h : H) (x y : Nat) (l : L) (strs) :
    locOf (setLoc h x l strs) y = if x = y then (if x < h.objs.length then some l else none) else locOf h y := by
  unfold locOf setLoc
  simp only [getElem?_modify']
  by_cases hxy : x = y
  · subst hxy
    simp only [if_true]
    by_cases hx : x < h.objs.length
    · simp [hx]
    · simp [hx]
  · simp [hxy]

theorem same_setLoc (h : H) (x : Nat) (l : L) (strs) : Same h (setLoc h x l strs) := by
  refine ⟨by simp [setLoc], ?_⟩
  funext y
  unfold kidsOf setLoc
  simp only [getElem?_modify']
  by_cases hxy : x = y
  · subst hxy
    simp only [if_true, Option.map_map]
    rfl
  · simp [hxy]

/-- Copying between different objects works. -/
theorem copyLoc_ok {h : H} (wf : WF h) {d s : Nat} (hne : d ≠ s) :
    ∃ h', copyLoc h d s = .ok h' ∧ WF h' ∧ Same h h' ∧ (∀ x, x ≠ d → Place h' x = Place h x) ∧
      ((locOf h s).isSome → d < h.objs.length → Place h' d = Place h s) ∧ ((locOf h s).isSome → d < h.objs.length → (locOf h' d).isSome) := by
  unfold copyLoc
  cases hl : locOf h s with
  | none => exact ⟨h, rfl, wf, .refl h, fun _ _ => rfl, fun h => by simp at h, fun h => by simp at h⟩
  | some l =>
    -- the strings after the free
    have hfree : ∃ strs, freeOpt h.strs ((locOf h d).bind (·.file)) = .ok strs ∧ strs.length = h.strs.length ∧
        (∀ p, (∀ m, locOf h d = some m → m.file ≠ some p) → strs[p]? = h.strs[p]?) := by
      cases hd : (locOf h d).bind (·.file) with
      | none => exact ⟨_, rfl, rfl, fun _ _ => rfl⟩
      | some p =>
        obtain ⟨m, hm, hp⟩ := Option.bind_eq_some_iff.1 hd
        obtain ⟨t, ht⟩ := wf.live d m p hm hp
        refine ⟨h.strs.set p none, by simp [freeOpt, freeStr, ht], by simp, ?_⟩
        intro q hq
        have : p ≠ q := fun e => hq m hm (by rw [hp, e])
        simp [List.getElem?_set, this]
    obtain ⟨strs, hs1, hs2, hs3⟩ := hfree
    simp only [hs1, Res.bind_ok]
    -- names of other objects are still there
    have hlive : ∀ x m p, x ≠ d → locOf h x = some m → m.file = some p → strs[p]? = h.strs[p]? := by
      intro x m p hx hm hp
      exact hs3 p fun m' hm' hp' => hx (wf.own x d m m' p hm hm' hp hp')
    have hdup : ∃ q strs', dupOpt strs l.file = .ok (q, strs') ∧ (∀ p, p < strs.length → strs'[p]? = strs[p]?) ∧
        (∀ p, q = some p → p = strs.length ∧ ∃ t, strs'[p]? = some (some t)) ∧
        (q.bind fun p => (strs'[p]?).join) = (l.file.bind fun p => (h.strs[p]?).join) := by
      cases hlf : l.file with
      | none => exact ⟨none, strs, rfl, fun _ _ => rfl, fun p hp => (by cases hp), rfl⟩
      | some p =>
        have h1 := hlive s l p (Ne.symm hne) hl hlf
        obtain ⟨t, ht⟩ := wf.live s l p hl hlf
        refine ⟨some strs.length, strs ++ [some t], by simp [dupOpt, dupStr, h1, ht], ?_, ?_, by simp [ht]⟩
        · intro q hq; rw [List.getElem?_append_left hq]
        · intro q hq; cases hq; exact ⟨rfl, t, by simp⟩
    obtain ⟨q, strs', hd1, hd2, hd3, hd4⟩ := hdup
    simp only [hd1, Res.bind_ok, Res.pure_eq]
    refine ⟨_, rfl, ⟨?_, ?_⟩, same_setLoc _ _ _ _, ?_, ?_, ?_⟩
    · intro x m p hm hp
      rw [locOf_setLoc] at hm
      split at hm
      · split at hm
        · cases hm; exact (hd3 p hp).2
        · cases hm
      · rename_i hx
        obtain ⟨t, ht⟩ := wf.live x m p hm hp
        have hlt : p < strs.length := by rw [hs2]; exact (List.getElem?_eq_some_iff.1 ht).1
        refine ⟨t, ?_⟩
        show strs'[p]? = _
        rw [hd2 p hlt, hlive x m p (Ne.symm hx) hm hp, ht]
    · intro x y m m' p hm hm' hp hp'
      have hold : ∀ z k, d ≠ z → locOf h z = some k → k.file = some p → q ≠ some p := by
        intro z k hz hk hkp hq
        obtain ⟨t, ht⟩ := wf.live z k p hk hkp
        have hlt : p < strs.length := by rw [hs2]; exact (List.getElem?_eq_some_iff.1 ht).1
        have := (hd3 p hq).1
        omega
      rw [locOf_setLoc] at hm hm'
      split at hm <;> split at hm'
      · rename_i a b; omega
      · rename_i a b
        split at hm
        · cases hm; exact absurd hp (hold y m' b hm' hp')
        · cases hm
      · rename_i a b
        split at hm'
        · cases hm'; exact absurd hp' (hold x m a hm hp)
        · cases hm'
      · exact wf.own x y m m' p hm hm' hp hp'
    · intro x hx
      unfold Place
      rw [locOf_setLoc, if_neg (Ne.symm hx)]
      cases hm : locOf h x with
      | none => rfl
      | some m =>
        simp only [Option.map_some, Option.some.injEq, Prod.mk.injEq, and_true]
        cases hp : m.file with
        | none => rfl
        | some p =>
          obtain ⟨t, ht⟩ := wf.live x m p hm hp
          have hlt : p < strs.length := by rw [hs2]; exact (List.getElem?_eq_some_iff.1 ht).1
          simp only [Option.bind_some]
          show (strs'[p]?).join = _
          rw [hd2 p hlt, hlive x m p hx hm hp]
    · intro _ hlt
      unfold Place
      rw [locOf_setLoc, if_pos rfl, if_pos hlt, hl]
      simp only [Option.map_some, Option.some.injEq, Prod.mk.injEq, and_true]
      exact hd4
    · intro _ hlt
      rw [locOf_setLoc, if_pos rfl, if_pos hlt]; rfl

/-- What `copyRec` guarantees. -/
def Good (h : H) (d s : Nat) (r : Res H) : Prop :=
  ∃ h', r = .ok h' ∧ WF h' ∧ Same h h' ∧ (∀ x, (∀ y, ¬ Paired (kidsOf h) d s x y) → Place h' x = Place h x)

theorem zipRun_good {n : Nat} {h0 : H} (ih : ∀ h d s, kidsOf h = kidsOf h0 → WF h → (∀ a, ¬ Paired (kidsOf h) d s a a) → Depth (kidsOf h) s n →
      Good h d s (copyRec n h d s)) (as bs : List Nat) (h : H) (hk : kidsOf h = kidsOf h0) (wf : WF h)
    (hne : ∀ a b, (a, b) ∈ as.zip bs → ∀ x, ¬ Paired (kidsOf h) a b x x) (hd : ∀ b ∈ bs, Depth (kidsOf h) b n) :
    ∃ h', zipRun (copyRec n) as bs h = .ok h' ∧ WF h' ∧ Same h h' ∧
      (∀ x, (∀ a b y, (a, b) ∈ as.zip bs → ¬ Paired (kidsOf h) a b x y) → Place h' x = Place h x) := by
  induction as generalizing bs h with
  | nil => exact ⟨h, by simp [zipRun], wf, .refl h, fun _ _ => rfl⟩
  | cons a as ih2 =>
    cases bs with
    | nil => exact ⟨h, by simp [zipRun], wf, .refl h, fun _ _ => rfl⟩
    | cons b bs =>
      obtain ⟨h1, e1, wf1, s1, p1⟩ := ih h a b hk wf (hne a b (by simp)) (hd b (by simp))
      obtain ⟨h2, e2, wf2, s2, p2⟩ := ih2 bs h1 (s1.kids.trans hk) wf1
        (fun x y hxy => by rw [s1.kids]; exact hne x y (by simp [hxy])) (fun x hx => by rw [s1.kids]; exact hd x (by simp [hx]))
      refine ⟨h2, by simp only [zipRun, e1, Res.bind_ok, e2], wf2, s1.trans s2, ?_⟩
      intro x hx
      rw [p2 x (fun c e y hce => by rw [s1.kids]; exact hx c e y (by simp [hce])), p1 x (fun y => hx a b y (by simp))]

theorem copyRec_good (n : Nat) : ∀ h d s, WF h → (∀ a, ¬ Paired (kidsOf h) d s a a) → Depth (kidsOf h) s n → Good h d s (copyRec n h d s) := by
  induction n with
  | zero => intro h d s _ _ hd; cases hd
  | succ n ih =>
    intro h d s wf hne hd
    unfold copyRec
    cases hl : locOf h s with
    | none => exact ⟨h, rfl, wf, .refl h, fun _ _ => rfl⟩
    | some l =>
      have hds : d ≠ s := fun e => hne s (by rw [e]; exact .here)
      obtain ⟨h1, e1, wf1, s1, p1, _⟩ := copyLoc_ok wf hds
      simp only [e1, Res.bind_ok]
      obtain ⟨h2, e2, wf2, s2, p2⟩ := zipRun_good (h0 := h1) (fun h d s _ => ih h d s) (kidsOf h1 d) (kidsOf h1 s) h1 rfl wf1
        (fun a b hab x hp => hne x (by rw [s1.kids] at hab hp; exact .kid hab hp))
        (by
          cases hd with
          | mk hd => rw [s1.kids]; exact hd)
      refine ⟨h2, e2, wf2, s1.trans s2, ?_⟩
      intro x hx
      rw [p2 x (fun a b y hab hp => hx y (by rw [s1.kids] at hab hp; exact .kid hab hp)),
        p1 x (fun e => hx s (by rw [e]; exact .here))]

/-! ## The failing case -/

/-- Every location names a file, as for everything read from a file. -/
def AllNamed (h : H) : Prop := ∀ x l, locOf h x = some l → l.file ≠ none

theorem copyLoc_named {h h' : H} {d s : Nat} (hn : AllNamed h) (e : copyLoc h d s = .ok h') :
    AllNamed h' ∧ kidsOf h' = kidsOf h ∧ (∀ x, (locOf h x).isSome → (locOf h' x).isSome) := by
  unfold copyLoc at e
  cases hl : locOf h s with
  | none => rw [hl] at e; cases e; exact ⟨hn, rfl, fun _ h => h⟩
  | some l =>
    rw [hl] at e
    simp only at e
    obtain ⟨strs, _, e⟩ := Res.bind_eq_ok.1 e
    obtain ⟨r, hr, e⟩ := Res.bind_eq_ok.1 e
    cases e
    have hr1 : r.1 ≠ none := by
      cases hf : l.file with
      | none => exact absurd hf (hn s l hl)
      | some p =>
        rw [hf] at hr
        simp only [dupOpt] at hr
        obtain ⟨q, _, hq⟩ := Res.bind_eq_ok.1 hr
        cases hq; simp
    refine ⟨?_, (same_setLoc _ _ _ _).kids, ?_⟩
    · intro x m hm
      rw [locOf_setLoc] at hm
      split at hm
      · split at hm
        · cases hm; exact hr1
        · cases hm
      · exact hn x m hm
    · intro x hx
      rw [locOf_setLoc]
      split
      · rename_i hdx
        split
        · rfl
        · rename_i hlt
          subst hdx
          unfold locOf at hx
          rw [List.getElem?_eq_none (by omega)] at hx
          simp at hx
      · exact hx

theorem zipRun_named {f : H → Nat → Nat → Res H} (hf : ∀ h h' d s, AllNamed h → f h d s = .ok h' →
      AllNamed h' ∧ kidsOf h' = kidsOf h ∧ (∀ x, (locOf h x).isSome → (locOf h' x).isSome)) (as bs : List Nat) {h h' : H} (hn : AllNamed h)
    (e : zipRun f as bs h = .ok h') :
    AllNamed h' ∧ kidsOf h' = kidsOf h ∧ (∀ x, (locOf h x).isSome → (locOf h' x).isSome) := by
  induction as generalizing bs h with
  | nil => simp only [zipRun] at e; cases e; exact ⟨hn, rfl, fun _ h => h⟩
  | cons a as ih =>
    cases bs with
    | nil => simp only [zipRun] at e; cases e; exact ⟨hn, rfl, fun _ h => h⟩
    | cons b bs =>
      simp only [zipRun] at e
      obtain ⟨h1, e1, e⟩ := Res.bind_eq_ok.1 e
      obtain ⟨n1, k1, p1⟩ := hf _ _ _ _ hn e1
      obtain ⟨n2, k2, p2⟩ := ih bs n1 e
      exact ⟨n2, k2.trans k1, fun x hx => p2 x (p1 x hx)⟩

theorem copyRec_named (n : Nat) : ∀ h h' d s, AllNamed h → copyRec n h d s = .ok h' →
    AllNamed h' ∧ kidsOf h' = kidsOf h ∧ (∀ x, (locOf h x).isSome → (locOf h' x).isSome) := by
  induction n with
  | zero => intro h h' d s _ e; cases e
  | succ n ih =>
    intro h h' d s hn e
    unfold copyRec at e
    cases hl : locOf h s with
    | none => rw [hl] at e; cases e; exact ⟨hn, rfl, fun _ h => h⟩
    | some l =>
      rw [hl] at e
      simp only at e
      obtain ⟨h1, e1, e⟩ := Res.bind_eq_ok.1 e
      obtain ⟨n1, k1, p1⟩ := copyLoc_named hn e1
      obtain ⟨n2, k2, p2⟩ := zipRun_named ih _ _ n1 e
      exact ⟨n2, k2.trans k1, fun x hx => p2 x (p1 x hx)⟩

theorem copyLoc_self {h h' : H} {x : Nat} {l : L} {p : Nat} (hl : locOf h x = some l) (hp : l.file = some p) : copyLoc h x x ≠ .ok h' := by
  intro e
  unfold copyLoc at e
  simp only [hl, Option.bind_some, hp, freeOpt, freeStr, dupOpt, dupStr] at e
  split at e
  · rename_i t ht
    have hlt := (List.getElem?_eq_some_iff.1 ht).1
    simp [hlt] at e
  · cases e

theorem copyRec_self {n : Nat} {h h' : H} {x : Nat} (hn : AllNamed h) (hx : (locOf h x).isSome) : copyRec n h x x ≠ .ok h' := by
  cases n with
  | zero => intro e; cases e
  | succ n =>
    intro e
    unfold copyRec at e
    cases hl : locOf h x with
    | none => rw [hl] at hx; cases hx
    | some l =>
      rw [hl] at e
      simp only at e
      obtain ⟨h1, e1, _⟩ := Res.bind_eq_ok.1 e
      cases hp : l.file with
      | none => exact hn x l hl hp
      | some p => exact copyLoc_self hl hp e1

theorem zipRun_shared {n : Nat} (as bs : List Nat) {h h' : H} {x : Nat} (hn : AllNamed h) (hx : (locOf h x).isSome)
    (hm : (x, x) ∈ as.zip bs) : zipRun (copyRec n) as bs h ≠ .ok h' := by
  induction as generalizing bs h with
  | nil => simp at hm
  | cons a as ih =>
    cases bs with
    | nil => simp at hm
    | cons b bs =>
      intro e
      simp only [zipRun] at e
      obtain ⟨h1, e1, e⟩ := Res.bind_eq_ok.1 e
      simp only [List.zip_cons_cons, List.mem_cons, Prod.mk.injEq] at hm
      rcases hm with ⟨rfl, rfl⟩ | hm
      · exact copyRec_self hn hx e1
      · obtain ⟨n1, _, p1⟩ := copyRec_named n _ _ _ _ hn e1
        exact ih bs n1 (p1 x hx) hm e

end Pscm.Loc
