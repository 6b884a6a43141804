import Verif.SmobCall
import Verif.DataProps2
/-!
# C121: the functions of a smob type
-/
namespace Pscm.Smb
open Pscm.Misc Pscm.Spec

/-! ## Specification -/

/-- Calls of the C interface: a new type; one of the four setters; `scm_set_smob_apply`.  Functions are numbers, `none` is a null pointer. -/
inductive Op
  | newType (name : List UInt8) (size : Nat)
  | set (tag : Int) (slot : Slot) (f : Option Nat)
  | setApply (tag : Int) (f0 f1 f2 f3 : Option Nat)

/-- The table after a call. -/
def Op.run (t : Types) : Op → Types
  | .newType n z => (makeType t n z).2
  | .set tag s f => (setFn t tag s (f.map .user)).2
  | .setApply tag f0 f1 f2 f3 => (Smb.setApply t tag (f0.map .user) (f1.map .user) (f2.map .user) (f3.map .user)).2

/-- The table after a history of calls, newest first. -/
def after : List Op → Types
  | [] => []
  | op :: h => op.run (after h)

/-- The number of types made: at most 256. -/
def made : List Op → Nat
  | [] => 0
  | .newType _ _ :: h => if made h < 256 then made h + 1 else made h
  | _ :: h => made h

/-- The functions of a new type of the given size. -/
def initial (size : Nat) : Slot → Option Fn
  | .mark => some .dfltMark
  | .free => if size = 0 then none else some .dfltFree
  | .print => some .dfltPrint
  | .equalp => some .dfltEqualp
  | .apply0 | .apply1 | .apply2 | .apply3 => none

/-- The function last given to a slot of the type number `k`. -/
def lastFn (k : Nat) (s : Slot) : List Op → Option Fn
  | [] => none
  | .newType _ z :: h => if made h = k ∧ k < 256 then initial z s else lastFn k s h
  | .set tag s' f :: h => if tag = baseTag + k ∧ s' = s ∧ k < made h then f.map .user else lastFn k s h
  | .setApply tag f0 f1 f2 f3 :: h =>
    if tag = baseTag + k ∧ k < made h then match s with
      | .apply0 => f0.map .user
      | .apply1 => f1.map .user
      | .apply2 => f2.map .user
      | .apply3 => f3.map .user
      | _ => lastFn k s h
    else lastFn k s h

/-- The name and size of the type number `k`. -/
def nameOf (k : Nat) : List Op → Option (List UInt8 × Nat)
  | [] => none
  | .newType n z :: h => if made h = k ∧ k < 256 then some (n, z) else nameOf k h
  | _ :: h => nameOf k h

/-- The slot for a number of arguments. -/
def slotFor : Nat → Option Slot
  | 0 => some .apply0
  | 1 => some .apply1
  | 2 => some .apply2
  | 3 => some .apply3
  | _ => none

/-- Expressions evaluated from left to right, all successfully. -/
inductive Each {σ X : Type} (ev : X → σ → Res Val × σ) : List X → σ → List Val → σ → Prop
  | nil {s} : Each ev [] s [] s
  | cons {x xs s v s1 vs s2} : ev x s = (.ok v, s1) → Each ev xs s1 vs s2 → Each ev (x :: xs) s (v :: vs) s2

/-! ## Lemmas -/

theorem index_cases (t : Types) (tag : Int) :
    (∃ k : Nat, k < t.length ∧ tag = baseTag + k ∧ index t tag = .ok k) ∨ ((∀ k : Nat, k < t.length → tag ≠ baseTag + k) ∧ ∀ i, index t tag ≠ .ok i) := by
  unfold index smobNum
  by_cases h1 : tag - baseTag < -(2 ^ 63)
  · right
    rw [if_pos h1]
    exact ⟨fun k _ h => by omega, fun i h => by cases h⟩
  · rw [if_neg h1]
    show (∃ k : Nat, k < t.length ∧ tag = baseTag + k ∧ (if tag - baseTag < 0 ∨ tag - baseTag ≥ t.length then Res.err Err.evalError else Res.ok (tag - baseTag).toNat) = .ok k) ∨
      ((∀ k : Nat, k < t.length → tag ≠ baseTag + k) ∧ ∀ i, (if tag - baseTag < 0 ∨ tag - baseTag ≥ t.length then Res.err Err.evalError else Res.ok (tag - baseTag).toNat) ≠ .ok i)
    by_cases h2 : tag - baseTag < 0 ∨ tag - baseTag ≥ t.length
    · right
      rw [if_pos h2]
      exact ⟨fun k hk h => by omega, fun i h => by cases h⟩
    · left
      rw [if_neg h2]
      exact ⟨(tag - baseTag).toNat, by omega, by omega, rfl⟩

theorem descriptor_of {t : Types} {k : Nat} {d : Desc} (h : t[k]? = some d) : descriptor t (baseTag + k) = .ok (some d) := by
  have hk : k < t.length := (List.getElem?_eq_some_iff.1 h).1
  unfold descriptor smobNum
  rw [if_neg (by omega)]
  show (if baseTag + (k : Int) - baseTag < 0 ∨ baseTag + (k : Int) - baseTag ≥ t.length then pure none else pure t[(baseTag + (k : Int) - baseTag).toNat]?) = _
  have e : (baseTag + (k : Int) - baseTag).toNat = k := by omega
  rw [if_neg (by omega), e, h]
  rfl

theorem setFn_cases (t : Types) (tag : Int) (s : Slot) (f : Option Fn) :
    (∃ k : Nat, k < t.length ∧ tag = baseTag + k ∧ (setFn t tag s f).2 = store t k s f) ∨
    ((∀ k : Nat, k < t.length → tag ≠ baseTag + k) ∧ (setFn t tag s f).2 = t) := by
  rcases index_cases t tag with ⟨k, h1, h2, h3⟩ | ⟨h1, h2⟩
  · exact .inl ⟨k, h1, h2, by simp [setFn, h3]⟩
  · refine .inr ⟨h1, ?_⟩
    unfold setFn
    split
    · rename_i i h; exact absurd h (h2 i)
    all_goals rfl

theorem setApply_cases (t : Types) (tag : Int) (f0 f1 f2 f3 : Option Fn) :
    (∃ k : Nat, k < t.length ∧ tag = baseTag + k ∧
      (setApply t tag f0 f1 f2 f3).2 = store (store (store (store t k .apply0 f0) k .apply1 f1) k .apply2 f2) k .apply3 f3) ∨
    ((∀ k : Nat, k < t.length → tag ≠ baseTag + k) ∧ (setApply t tag f0 f1 f2 f3).2 = t) := by
  rcases index_cases t tag with ⟨k, h1, h2, h3⟩ | ⟨h1, h2⟩
  · exact .inl ⟨k, h1, h2, by simp [setApply, h3]⟩
  · refine .inr ⟨h1, ?_⟩
    unfold setApply
    split
    · rename_i i h; exact absurd h (h2 i)
    all_goals rfl

theorem store_get (t : Types) (i k : Nat) (s : Slot) (f : Option Fn) :
    (store t i s f)[k]? = (t[k]?).map fun d => if i = k then { d with fn := fun s' => if s' = s then f else d.fn s' } else d := by
  unfold store
  rw [List.getElem?_modify]
  cases t[k]? with
  | none => rfl
  | some d => by_cases h : i = k <;> simp [h]

theorem after_spec (h : List Op) : (after h).length = made h ∧ made h ≤ 256 ∧
    ∀ k d, (after h)[k]? = some d → (∀ s, d.fn s = lastFn k s h) ∧ nameOf k h = some (d.name, d.size) := by
  induction h with
  | nil => exact ⟨rfl, by simp [made], fun k d h => by simp [after] at h⟩
  | cons op h ih =>
    obtain ⟨ih1, ih2, ih3⟩ := ih
    cases op with
    | newType n z =>
      by_cases hfull : made h < 256
      · have hrun : after (.newType n z :: h) = after h ++ [fresh n z] := by
          show (makeType (after h) n z).2 = _
          unfold makeType
          rw [if_neg (by show ¬ (after h).length ≥ 256; omega)]
        rw [hrun]
        simp only [made]
        rw [if_pos hfull]
        refine ⟨by simp [ih1], by omega, ?_⟩
        intro k d hk
        simp only [lastFn, nameOf]
        by_cases hlt : k < (after h).length
        · rw [List.getElem?_append_left hlt] at hk
          rw [if_neg (by omega)]
          obtain ⟨a, b⟩ := ih3 k d hk
          refine ⟨fun s => by rw [if_neg (by omega)]; exact a s, b⟩
        · rw [List.getElem?_append_right (by omega)] at hk
          obtain ⟨h1, rfl⟩ := List.getElem?_eq_some_iff.1 hk
          have hk' : made h = k ∧ k < 256 := by simp at h1; omega
          have h0 : k - (after h).length = 0 := by omega
          simp only [h0, List.getElem_cons_zero, hk', and_self, if_true]
          refine ⟨fun s => ?_, rfl⟩
          cases s <;> simp [fresh, initial]
          by_cases hz : z = 0
          · simp [hz]
          · simp [hz, Nat.pos_of_ne_zero hz]
      · have hrun : after (.newType n z :: h) = after h := by
          show (makeType (after h) n z).2 = _
          unfold makeType
          rw [if_pos (by show (after h).length ≥ 256; omega)]
        rw [hrun]
        simp only [made]
        rw [if_neg hfull]
        refine ⟨ih1, ih2, fun k d hk => ?_⟩
        obtain ⟨a, b⟩ := ih3 k d hk
        simp only [lastFn, nameOf]
        refine ⟨fun s => by rw [if_neg (by omega)]; exact a s, by rw [if_neg (by omega)]; exact b⟩
    | set tag s f =>
      simp only [after, Op.run, made, nameOf]
      rcases setFn_cases (after h) tag s (f.map .user) with ⟨i, h1, h2, h3⟩ | ⟨h1, h2⟩
      · rw [h3]
        refine ⟨by simp [store, ih1], ih2, fun k d hk => ?_⟩
        rw [store_get] at hk
        cases hd : (after h)[k]? with
        | none => rw [hd] at hk; cases hk
        | some d0 =>
          rw [hd] at hk
          obtain ⟨a, b⟩ := ih3 k d0 hd
          have hkl : k < made h := by rw [← ih1]; exact (List.getElem?_eq_some_iff.1 hd).1
          simp only [Option.map_some, Option.some.injEq] at hk
          by_cases hik : i = k
          · subst hik
            rw [if_pos rfl] at hk
            subst hk
            refine ⟨fun s' => ?_, b⟩
            simp only [lastFn]
            by_cases hs : s' = s
            · subst hs; simp [h2, hkl]
            · simp [hs, Ne.symm hs, a]
          · rw [if_neg hik] at hk
            subst hk
            refine ⟨fun s' => ?_, b⟩
            simp only [lastFn]
            rw [if_neg (by omega)]
            exact a s'
      · rw [h2]
        refine ⟨ih1, ih2, fun k d hk => ?_⟩
        obtain ⟨a, b⟩ := ih3 k d hk
        refine ⟨fun s' => ?_, b⟩
        simp only [lastFn]
        have := h1 k (List.getElem?_eq_some_iff.1 hk).1
        rw [if_neg (fun hh => this hh.1)]
        exact a s'
    | setApply tag f0 f1 f2 f3 =>
      simp only [after, Op.run, made, nameOf]
      rcases setApply_cases (after h) tag (f0.map .user) (f1.map .user) (f2.map .user) (f3.map .user) with ⟨i, h1, h2, h3⟩ | ⟨h1, h2⟩
      · rw [h3]
        refine ⟨by simp [store, ih1], ih2, fun k d hk => ?_⟩
        rw [store_get, store_get, store_get, store_get] at hk
        cases hd : (after h)[k]? with
        | none => rw [hd] at hk; cases hk
        | some d0 =>
          rw [hd] at hk
          obtain ⟨a, b⟩ := ih3 k d0 hd
          have hkl : k < made h := by rw [← ih1]; exact (List.getElem?_eq_some_iff.1 hd).1
          simp only [Option.map_some, Option.some.injEq] at hk
          by_cases hik : i = k
          · subst hik
            simp only [if_true] at hk
            subst hk
            refine ⟨fun s' => ?_, b⟩
            simp only [lastFn, h2, hkl, and_self, if_true]
            cases s' <;> simp [a]
          · simp only [if_neg hik] at hk
            subst hk
            refine ⟨fun s' => ?_, b⟩
            simp only [lastFn]
            rw [if_neg (by omega)]
            exact a s'
      · rw [h2]
        refine ⟨ih1, ih2, fun k d hk => ?_⟩
        obtain ⟨a, b⟩ := ih3 k d hk
        refine ⟨fun s' => ?_, b⟩
        simp only [lastFn]
        have := h1 k (List.getElem?_eq_some_iff.1 hk).1
        rw [if_neg (fun hh => this hh.1)]
        exact a s'

theorem descriptor_after (h : List Op) {k : Nat} (hk : k < made h) :
    ∃ d, descriptor (after h) (baseTag + k) = .ok (some d) ∧ (∀ s, d.fn s = lastFn k s h) ∧ nameOf k h = some (d.name, d.size) := by
  obtain ⟨h1, _, h3⟩ := after_spec h
  have : k < (after h).length := by omega
  exact ⟨(after h)[k], descriptor_of (List.getElem?_eq_getElem this), h3 k _ (List.getElem?_eq_getElem this)⟩

theorem each_evalEach {σ X : Type} {ev : X → σ → Res Val × σ} {xs : List X} {s s' : σ} {vs : List Val} (h : Each ev xs s vs s') :
    evalEach ev xs s = (.ok vs, s') := by
  induction h with
  | nil => rfl
  | cons h1 _ ih => simp [evalEach, h1, ih]

/-! ## C121 -/

variable {σ X : Type}

/-- C121: making a type gives a tag that no type made before has, as long as fewer than 256 types are there; then it is an error that changes nothing. -/
theorem c121_tags (h : List Op) (name : List UInt8) (size : Nat) :
    (made h < 256 → (makeType (after h) name size).1 = .ok (baseTag + made h) ∧
      ∀ l n' z' tag, (∃ l', h = l' ++ .newType n' z' :: l) → (makeType (after l) n' z').1 = .ok tag → tag < baseTag + made h) ∧
    (made h = 256 → makeType (after h) name size = (.err .evalError, after h)) := by
  have tagOf : ∀ g n z, made g < 256 → (makeType (after g) n z).1 = .ok (baseTag + made g) := by
    intro g n z hg
    simp [makeType, (after_spec g).1, maxSmob, show ¬ (256 ≤ made g) by omega]
  refine ⟨fun hm => ⟨tagOf h name size hm, ?_⟩, fun hm => ?_⟩
  · rintro l n' z' tag ⟨l', rfl⟩ ht
    have hlt : made l < 256 := by
      apply Classical.byContradiction
      intro hn
      simp [makeType, (after_spec l).1, maxSmob, show 256 ≤ made l by omega] at ht
    rw [tagOf l n' z' hlt] at ht
    cases ht
    have mono : ∀ l' g, made g ≤ made (l' ++ g) := by
      intro l' g
      induction l' with
      | nil => simp
      | cons o l' ih =>
        have : made (l' ++ g) ≤ made (o :: (l' ++ g)) := by
          cases o <;> simp only [made]
          · split <;> omega
          · omega
          · omega
        exact Nat.le_trans ih this
    have := mono l' (.newType n' z' :: l)
    simp only [made, if_pos hlt] at this
    omega
  · simp [makeType, (after_spec h).1, maxSmob, hm]

/-- C121: `equal?` on two smobs: an object equals itself; smobs of different types differ; for smobs of the same type the answer is that of the function
last set for the type, called once with the two smobs in order; without one they differ. -/
theorem c121_equal (C : Calls σ) (h : List Op) (i j k l : Nat) (di dj : Int) (s : σ) (hk : k < made h) :
    equalSmobs C (after h) i i (baseTag + k) di (baseTag + k) di s = (.ok true, s) ∧
    (i ≠ j → k ≠ l → equalSmobs C (after h) i j (baseTag + k) di (baseTag + l) dj s = (.ok false, s)) ∧
    (i ≠ j → ∀ f, lastFn k .equalp h = some (.user f) → ∀ b s', C f [.smob i (baseTag + k) di, .smob j (baseTag + k) dj] s = (.ok (.bool b), s') →
      equalSmobs C (after h) i j (baseTag + k) di (baseTag + k) dj s = (.ok b, s')) ∧
    (i ≠ j → (∀ f, lastFn k .equalp h ≠ some (.user f)) → equalSmobs C (after h) i j (baseTag + k) di (baseTag + k) dj s = (.ok false, s)) := by
  obtain ⟨d, hd, hf, _⟩ := descriptor_after h hk
  refine ⟨by simp [equalSmobs], ?_, ?_, ?_⟩
  · intro hij hkl
    have : ¬ (baseTag + (k : Int) = baseTag + (l : Int)) := by omega
    simp [equalSmobs, hij, this]
  · intro hij f hlf b s' hc
    simp [equalSmobs, hij, hd, hf, hlf, hc]
  · intro hij hnf
    simp only [equalSmobs, hij, if_false, hd, hf, ne_eq, not_true_eq_false]
    cases hl : lastFn k .equalp h with
    | none => simp
    | some f => cases f with
      | user f => exact absurd hl (hnf f)
      | _ => simp

/-- C121: printing a smob calls the function last set for its type, once, with the smob and whether it is written or displayed; without one, the text is
`#<name n>` (`#<` is 35 60, space 32, `>` 62) with the data as a decimal number (types of size 0). -/
theorem c121_print (h : List Op) (i k : Nat) (data : Int) (w : Bool) (hk : k < made h) :
    (∀ f, lastFn k .print h = some (.user f) → printSmob (after h) i (baseTag + k) data w = .ok (.call f (.smob i (baseTag + k) data) w)) ∧
    ((∀ f, lastFn k .print h ≠ some (.user f)) → ∀ name, nameOf k h = some (name, 0) →
      ∃ digits, IsNumeral 10 data digits ∧ printSmob (after h) i (baseTag + k) data w = .ok (.text ([35, 60] ++ name ++ [32] ++ digits ++ [62]))) := by
  obtain ⟨d, hd, hf, hn⟩ := descriptor_after h hk
  refine ⟨fun f hlf => by simp [printSmob, hd, hf, hlf], fun hnf name hnm => ?_⟩
  rw [hn] at hnm
  simp only [Option.some.injEq, Prod.mk.injEq] at hnm
  have hdp : defaultPrint d data = .text ([35, 60] ++ name ++ [32] ++ printLld data ++ [62]) := by
    simp [defaultPrint, hnm.1, hnm.2]
  refine ⟨printLld data, printLld_numeral data, ?_⟩
  simp only [printSmob, hd, hf]
  cases hl : lastFn k .print h with
  | none => simp [hdp]
  | some f => cases f with
    | user f => exact absurd hl (hnf f)
    | _ => simp [hdp]

/-- C121: a combination whose operator is a smob object, or a combination that evaluates to a smob, calls the function set for its number of arguments,
with the smob and the values of the arguments, evaluated once each from left to right; without such a function it is an error, and no argument is
evaluated. -/
theorem c121_apply_partial (C : Calls σ) (ev : X → σ → Res Val × σ) (lookup : String → σ → Option Val) (rest : Val → List X → σ → Res Val × σ)
    (h : List Op) (i k : Nat) (data : Int) (hk : k < made h) (args : List X) (head : Head X) (s0 s : σ)
    (hh : head = .obj (.smob i (baseTag + k) data) ∧ s0 = s ∨ ∃ x, head = .expr x ∧ ev x s0 = (.ok (.smob i (baseTag + k) data), s)) :
    (∀ f slot vs s', slotFor args.length = some slot → lastFn k slot h = some (.user f) → Each ev args s vs s' →
      evalCall C ev lookup rest (after h) head args s0 = C f (.smob i (baseTag + k) data :: vs) s') ∧
    ((∀ slot, slotFor args.length = some slot → lastFn k slot h = none) →
      evalCall C ev lookup rest (after h) head args s0 = (.err .evalError, s)) := by
  obtain ⟨d, hd, hf, _⟩ := descriptor_after h hk
  have hc : evalCall C ev lookup rest (after h) head args s0 = callSmob C ev (after h) i (baseTag + k) data args s := by
    rcases hh with ⟨rfl, rfl⟩ | ⟨x, rfl, hx⟩
    · rfl
    · simp [evalCall, hx, callObj]
  have hslot : applySlot args.length = slotFor args.length := by
    unfold applySlot slotFor; rfl
  rw [hc]
  refine ⟨fun f slot vs s' hs hl he => ?_, fun hno => ?_⟩
  · simp [callSmob, hd, hslot, hs, hf, hl, each_evalEach he]
  · simp only [callSmob, hd, hslot]
    cases hs : slotFor args.length with
    | none => rfl
    | some slot => simp [hf, hno slot hs]

/-- C121 is FALSE when the operator is a variable: a call `(f e …)` of a smob bound to `f` is always an error, whatever functions its type has. -/
theorem c121_variable_fails (C : Calls σ) (ev : X → σ → Res Val × σ) (lookup : String → σ → Option Val) (rest : Val → List X → σ → Res Val × σ)
    (t : Types) (f : String) (i : Nat) (tag data : Int) (args : List X) (s : σ) (hf : lookup f s = some (.smob i tag data)) :
    evalCall C ev lookup rest t (.sym f) args s = (.err .evalError, s) := by
  simp [evalCall, hf, Val.type]

/-! Non-vacuity: a type `pt` of size 0 with apply functions 10 (one argument) and 11 (two), an equality 12, a second type left alone, a rejected call. -/

/-- Newest first. -/
def history : List Op :=
  [.set 7 .print (some 5), .set (baseTag + 0) .equalp (some 12), .setApply (baseTag + 0) none (some 10) (some 11) none, .newType [113] 8, .newType [112, 116] 0]

example : made history = 2 ∧ lastFn 0 .apply1 history = some (.user 10) ∧ lastFn 0 .apply2 history = some (.user 11) ∧ lastFn 0 .apply3 history = none ∧
    lastFn 0 .equalp history = some (.user 12) ∧ lastFn 1 .equalp history = some .dfltEqualp ∧ lastFn 0 .print history = some .dfltPrint ∧
    nameOf 0 history = some ([112, 116], 0) := by decide +kernel

/-- A world that logs its calls: function `f` returns the number of its arguments as an object. -/
def logging : Calls (List (Nat × List Val)) := fun f vs s => (.ok (if f = 12 then .bool true else .other 6 vs.length), (f, vs) :: s)
/-- Expressions are values. -/
def selfEv : Val → List (Nat × List Val) → Res Val × List (Nat × List Val) := fun v s => (.ok v, s)

example : evalCall logging selfEv (fun _ _ => none) (fun _ _ s => (.abort, s)) (after history) (.obj (.smob 4 (baseTag + 0) 3)) [.bool true, .other 6 1] [] =
    (.ok (.other 6 3), [(11, [.smob 4 (baseTag + 0) 3, .bool true, .other 6 1])]) :=
  (c121_apply_partial logging selfEv _ _ history 4 0 3 (by decide) _ _ [] [] (.inl ⟨rfl, rfl⟩)).1 11 .apply2 _ [] rfl (by decide +kernel) (.cons rfl (.cons rfl .nil))

example : evalCall logging selfEv (fun _ _ => some (.smob 4 (baseTag + 0) 3)) (fun _ _ s => (.abort, s)) (after history) (.sym "f") [.bool true] [] = (.err .evalError, []) :=
  c121_variable_fails _ _ _ _ _ _ 4 _ 3 _ _ rfl

example : equalSmobs logging (after history) 4 5 (baseTag + 0) 3 (baseTag + 0) 9 [] =
    (.ok true, [(12, [.smob 4 (baseTag + 0) 3, .smob 5 (baseTag + 0) 9])]) :=
  (c121_equal logging history 4 5 0 1 3 9 [] (by decide)).2.2.1 (by decide) 12 (by decide +kernel) true _ rfl

example : printSmob (after history) 4 (baseTag + 0) (-3) true = .ok (.text [35, 60, 112, 116, 32, 45, 51, 62]) := by decide +kernel

end Pscm.Smb
