import Verif.Pred
import Verif.ListProps2
/-!
# C102 — type predicates classify every object
-/
namespace Pscm

/-- Calling the builtin of that name on `o` returns `#t` and changes nothing, in every heap. -/
def Says (name : String) (o : Obj) : Prop := ∃ p, Pred.builtin name = some p ∧ ∀ h, p o h = (.ok Obj.t, h)

/-- Calling the builtin of that name on `o` returns `#f` and changes nothing, in every heap. -/
def Denies (name : String) (o : Obj) : Prop := ∃ p, Pred.builtin name = some p ∧ ∀ h, p o h = (.ok Obj.f, h)

/-- Specification (R5RS 3.2): the predicate each kind of datum satisfies; `none` for the objects outside the nine standard classes
and the empty list (hash tables, macros, ports, promises, modules, smobs, variables, the unspecified value). -/
def standardClass : Val → Option String
  | .bool _ => some "boolean?"
  | .sym _ => some "symbol?"
  | .num _ | .flo _ | .ratio _ _ => some "number?"
  | .chr _ => some "char?"
  | .str _ => some "string?"
  | .vec _ => some "vector?"
  | .list _ => some "pair?"
  | .nil => some "null?"
  | .other .proc _ | .other .func _ | .other .cont _ => some "procedure?"
  | _ => none

def standardClasses : List String :=
  ["boolean?", "symbol?", "number?", "char?", "string?", "vector?", "pair?", "null?", "procedure?"]

def numberPredicates : List String := ["complex?", "real?", "rational?", "integer?", "exact?", "inexact?"]

theorem ofBool_says {name : String} {p : Ty → Bool} (hb : Pred.builtin name = some (Pred.check p)) (o : Obj) :
    (Says name o ↔ p o.v.ty = true) ∧ (Denies name o ↔ p o.v.ty = false) := by
  constructor
  · constructor
    · rintro ⟨q, hq, hh⟩
      rw [hb] at hq; cases hq
      have := hh ⟨[], [], [], 0⟩
      cases hp : p o.v.ty
      · simp [Pred.check, hp, Obj.ofBool, Obj.t, Obj.f] at this
      · rfl
    · intro hp
      exact ⟨_, hb, fun h => by simp [Pred.check, hp, Obj.ofBool]⟩
  · constructor
    · rintro ⟨q, hq, hh⟩
      rw [hb] at hq; cases hq
      have := hh ⟨[], [], [], 0⟩
      cases hp : p o.v.ty
      · rfl
      · simp [Pred.check, hp, Obj.ofBool, Obj.t, Obj.f] at this
    · intro hp
      exact ⟨_, hb, fun h => by simp [Pred.check, hp, Obj.ofBool]⟩

/-- C102: each of the nine class predicates answers `#t` exactly on the data of its class and `#f` on everything else, never fails and
changes nothing; so no object belongs to two classes. -/
theorem c102_classes (name : String) (hn : name ∈ standardClasses) (o : Obj) :
    (standardClass o.v = some name → Says name o) ∧ (standardClass o.v ≠ some name → Denies name o) := by
  simp only [standardClasses, List.mem_cons, List.not_mem_nil, or_false] at hn
  obtain ⟨id, v⟩ := o
  rcases hn with rfl | rfl | rfl | rfl | rfl | rfl | rfl | rfl | rfl <;>
    refine ⟨fun h => (ofBool_says rfl _).1.mpr ?_, fun h => (ofBool_says rfl _).2.mpr ?_⟩ <;>
    (rcases v with _ | _ | _ | _ | _ | ⟨_, _⟩ | _ | _ | _ | _ | _ | _ | ⟨_ | _ | _ | _ | _ | _ | _ | _ | _, _⟩) <;>
    first | rfl | (exact absurd rfl h) | (simp [standardClass] at h)

/-- C102 (consequence): no object satisfies two of the nine class predicates. -/
theorem c102_disjoint (p q : String) (hp : p ∈ standardClasses) (hq : q ∈ standardClasses) (o : Obj)
    (h1 : Says p o) (h2 : Says q o) : p = q := by
  have key : ∀ n ∈ standardClasses, Says n o → standardClass o.v = some n := by
    intro n hn hs
    by_cases h : standardClass o.v = some n
    · exact h
    · obtain ⟨f, hf, hf'⟩ := (c102_classes n hn o).2 h
      obtain ⟨g, hg, hg'⟩ := hs
      rw [hf] at hg; cases hg
      have := (hf' ⟨[], [], [], 0⟩).symm.trans (hg' _)
      simp [Obj.t, Obj.f] at this
  have := (key p hp h1).symm.trans (key q hq h2)
  exact Option.some.inj this

/-- C102: the numeric predicates: `complex?` and `real?` answer as `number?`; every number is exactly one of exact and inexact; the exact
numbers are the rationals, `integer?` picks the fixed-width integers among them; on non-numbers all answer `#f`. -/
theorem c102_numbers_partial (o : Obj) :
    (∀ n, o.v = .num n → ∀ p ∈ ["number?", "complex?", "real?", "rational?", "integer?", "exact?"], Says p o) ∧
    (∀ n, o.v = .num n → Denies "inexact?" o) ∧
    (∀ n d, o.v = .ratio n d → (∀ p ∈ ["number?", "complex?", "real?", "rational?", "exact?"], Says p o) ∧
      Denies "integer?" o ∧ Denies "inexact?" o) ∧
    (∀ d, o.v = .flo d → (∀ p ∈ ["number?", "complex?", "real?", "inexact?"], Says p o) ∧
      (∀ p ∈ ["rational?", "integer?", "exact?"], Denies p o)) ∧
    (standardClass o.v ≠ some "number?" → ∀ p ∈ numberPredicates, Denies p o) := by
  obtain ⟨id, v⟩ := o
  refine ⟨?_, ?_, ?_, ?_, ?_⟩
  · rintro n hv p hp
    cases hv
    simp only [List.mem_cons, List.not_mem_nil, or_false] at hp
    rcases hp with rfl | rfl | rfl | rfl | rfl | rfl <;> exact (ofBool_says rfl _).1.mpr rfl
  · rintro n hv
    cases hv
    exact (ofBool_says rfl _).2.mpr rfl
  · rintro n d hv
    cases hv
    refine ⟨?_, (ofBool_says rfl _).2.mpr rfl, (ofBool_says rfl _).2.mpr rfl⟩
    intro p hp
    simp only [List.mem_cons, List.not_mem_nil, or_false] at hp
    rcases hp with rfl | rfl | rfl | rfl | rfl <;> exact (ofBool_says rfl _).1.mpr rfl
  · rintro d hv
    cases hv
    constructor
    · intro p hp
      simp only [List.mem_cons, List.not_mem_nil, or_false] at hp
      rcases hp with rfl | rfl | rfl | rfl <;> exact (ofBool_says rfl _).1.mpr rfl
    · intro p hp
      simp only [List.mem_cons, List.not_mem_nil, or_false] at hp
      rcases hp with rfl | rfl | rfl <;> exact (ofBool_says rfl _).2.mpr rfl
  · intro hv p hp
    simp only [numberPredicates, List.mem_cons, List.not_mem_nil, or_false] at hp
    rcases hp with rfl | rfl | rfl | rfl | rfl | rfl <;> refine (ofBool_says rfl _).2.mpr ?_ <;>
      cases v <;> first | rfl | exact absurd rfl hv

/-- C102: `not` answers `#t` exactly for `#f` (the empty list and 0 count as true). -/
theorem c102_not (o : Obj) : (o.v = .bool false → Says "not" o) ∧ (o.v ≠ .bool false → Denies "not" o) := by
  constructor
  · intro h; exact ⟨_, rfl, fun hp => by simp [Pred.not, h]⟩
  · intro h; exact ⟨_, rfl, fun hp => by simp [Pred.not, h]⟩

/-- C102 (violation): by R5RS 6.2.5 `2.0` is an integer and `0.5` a rational number, and `(= 2 2.0)` holds here too; `integer?` and
`rational?` deny both. -/
theorem c102_counterexample (F : FArith) (i j : Nat) :
    let two : Obj := ⟨i, .flo (Dbl.ofInt 2)⟩
    cmpChain F .eq [(Val.num 2).toNumV, two.v.toNumV] = .ok true ∧
      Denies "integer?" two ∧ Denies "rational?" two ∧ Denies "rational?" ⟨j, .flo (.fin false 1 (-1))⟩ := by
  refine ⟨rfl, (ofBool_says rfl _).2.mpr rfl, (ofBool_says rfl _).2.mpr rfl, (ofBool_says rfl _).2.mpr rfl⟩

/-! ### The constructors build members of the class they are named after -/

/-- Whenever `x` returns, its result satisfies `Q`. -/
def Yields {α : Type} (x : M α) (Q : α → Prop) : Prop := ∀ h r h', x h = (.ok r, h') → Q r

theorem Yields.bind {α β : Type} {x : M α} {f : α → M β} {Q : β → Prop} (hf : ∀ a, Yields (f a) Q) : Yields (x >>= f) Q := by
  intro h r h' e
  rw [M.bind_app] at e
  cases hx : x h with
  | mk o h1 =>
    rw [hx] at e
    cases o with
    | ok a => exact hf a _ _ _ e
    | _ => simp at e

theorem Yields.throw {α : Type} {e : Err} {Q : α → Prop} : Yields (M.throw e : M α) Q := by
  intro h r h' e; simp at e

theorem Yields.abort {α : Type} {Q : α → Prop} : Yields (M.lift .abort : M α) Q := by
  intro h r h' e; simp at e

theorem Yields.ub {α : Type} {Q : α → Prop} : Yields (M.lift .ub : M α) Q := by
  intro h r h' e; simp at e

theorem Yields.ite {α : Type} {c : Prop} [Decidable c] {x y : M α} {Q : α → Prop} (hx : Yields x Q) (hy : Yields y Q) :
    Yields (if c then x else y) Q := by
  split
  · exact hx
  · exact hy

theorem yields_newObj (v : Val) : Yields (newObj v) (fun r => r.v.ty = v.ty) := by
  intro h r h' e
  simp only [newObj] at e
  cases e; rfl

theorem yields_newStr (s : List UInt8) : Yields (newStr s) (fun r => r.v.ty = .str) := by
  intro h r h' e
  simp only [newStr] at e
  cases e; rfl

theorem yields_newVec (s : List Obj) : Yields (newVec s) (fun r => r.v.ty = .vector) := by
  intro h r h' e
  simp only [newVec] at e
  cases e; rfl

theorem says_of_ty {name : String} {p : Ty → Bool} (hb : Pred.builtin name = some (Pred.check p)) {r : Obj} {t : Ty} (hr : r.v.ty = t)
    (hp : p t = true) : Says name r := (ofBool_says hb r).1.mpr (by rw [hr]; exact hp)

/-- C102: whatever the arguments, what `cons`, `vector`, `make-vector`, `string-append`, `substring`, `symbol->string`, `string->symbol`,
`integer->char`, `char->integer` and `string-length` return satisfies the predicate of the promised type. -/
theorem c102_constructors (h h' : Heap) (r : Obj) :
    (∀ fuel x d, cons fuel x d h = (.ok r, h') → Says "pair?" r) ∧
    (∀ args, vector args h = (.ok r, h') → Says "vector?" r) ∧
    (∀ args, makeVector args h = (.ok r, h') → Says "vector?" r) ∧
    (∀ args, stringAppend args h = (.ok r, h') → Says "string?" r) ∧
    (∀ o p q, substring o p q h = (.ok r, h') → Says "string?" r) ∧
    (∀ o, symbolToString o h = (.ok r, h') → Says "string?" r) ∧
    (∀ o, stringToSymbol o h = (.ok r, h') → Says "symbol?" r) ∧
    (∀ o, integerToChar o h = (.ok r, h') → Says "char?" r) ∧
    (∀ o, charToInteger o h = (.ok r, h') → Says "integer?" r) ∧
    (∀ o, stringLength o h = (.ok r, h') → Says "integer?" r) := by
  have Yc : ∀ fuel x d, Yields (cons fuel x d) (fun r => r.v.ty = .list) := by
    intro fuel x d
    unfold cons
    refine .bind fun l => ?_
    split
    · exact .bind fun _ => .bind fun _ => yields_newObj _
    · exact yields_newObj _
    · exact .bind fun _ => .bind fun _ => yields_newObj _
  have Yi : ∀ k f, Yields (makeVectorImpl k f) (fun r => r.v.ty = .vector) := by
    intro k f
    unfold makeVectorImpl
    split
    · split
      · exact .throw
      · split
        · exact .abort
        · exact yields_newVec _
    · exact .throw
  have Ym : ∀ args, Yields (makeVector args) (fun r => r.v.ty = .vector) := by
    intro args
    unfold makeVector
    split
    · exact .throw
    · exact Yi _ _
    · exact Yi _ _
  have Ys : ∀ o, Yields (symbolToString o) (fun r => r.v.ty = .str) := by
    intro o
    unfold symbolToString
    split
    · exact .bind fun _ => yields_newStr _
    · exact .throw
  have Yy : ∀ o, Yields (stringToSymbol o) (fun r => r.v.ty = .sym) := by
    intro o
    unfold stringToSymbol createSym
    exact .bind fun _ => .bind fun _ => yields_newObj _
  refine ⟨?_, ?_, ?_, ?_, ?_, ?_, ?_, ?_, ?_, ?_⟩
  · exact fun fuel x d e => says_of_ty rfl (Yc fuel x d _ _ _ e) rfl
  · exact fun args e => says_of_ty rfl (yields_newVec _ _ _ _ e) rfl
  · exact fun args e => says_of_ty rfl (Ym args _ _ _ e) rfl
  · intro args e
    have : Yields (stringAppend args) (fun r => r.v.ty = .str) := by
      unfold stringAppend
      exact .bind fun _ => .bind fun _ => yields_newStr _
    exact says_of_ty rfl (this h r h' e) rfl
  · intro o p q e
    have : Yields (substring o p q) (fun r => r.v.ty = .str) := by
      unfold substring
      exact .bind fun _ => .bind fun _ => .bind fun _ => .ite .throw (.ite .throw (yields_newStr _))
    exact says_of_ty rfl (this h r h' e) rfl
  · exact fun o e => says_of_ty rfl (Ys o _ _ _ e) rfl
  · exact fun o e => says_of_ty rfl (Yy o _ _ _ e) rfl
  · intro o e
    have : Yields (integerToChar o) (fun r => r.v.ty = .chr) := by
      unfold integerToChar
      exact .bind fun _ => .ite .throw (yields_newObj _)
    exact says_of_ty rfl (this h r h' e) rfl
  · intro o e
    have : Yields (charToInteger o) (fun r => r.v.ty = .num) := by
      unfold charToInteger
      exact .bind fun _ => yields_newObj _
    exact says_of_ty rfl (this h r h' e) rfl
  · intro o e
    have : Yields (stringLength o) (fun r => r.v.ty = .num) := by
      unfold stringLength
      exact .bind fun _ => yields_newObj _
    exact says_of_ty rfl (this h r h' e) rfl

/-- `c102_classes` on a pair: `pair?` says yes, `null?` and `vector?` say no. -/
example : Says "pair?" exL123 ∧ Denies "null?" exL123 ∧ Denies "vector?" exL123 :=
  ⟨(c102_classes _ (by decide) _).1 rfl, (c102_classes _ (by decide) _).2 (by decide), (c102_classes _ (by decide) _).2 (by decide)⟩

/-- `c102_constructors`: `(cons 1 '(1 2 3))` does return. -/
example : ∃ r h', cons 9 (exNum 1) exL123 exH = (.ok r, h') ∧ Says "pair?" r :=
  ⟨_, _, rfl, (c102_constructors exH _ _).1 9 (exNum 1) exL123 rfl⟩

/-- `c102_numbers_partial`, `c102_not` on data that meet the hypotheses. -/
example : Says "exact?" (exNum 3) ∧ Denies "not" (exNum 0) ∧ Says "not" Obj.f :=
  ⟨(c102_numbers_partial _).1 3 rfl _ (by decide), (c102_not _).2 (by decide), (c102_not _).1 rfl⟩

end Pscm
