import Verif.EvDemo
import Verif.EvFormProps
/-!
# Quasiquotation (C58, C59)

The specification is the usual one of nested templates: `Plain k t` (a template of level `k` in which no unquotation of
level one occurs) and the inference rules `Fill` of the value of a template.
-/
namespace Pscm.Ev
variable {σ : Type}

/-! ## Specification -/

def unq (t : V) : V := listOf [.sym "unquote", t]
def qq (t : V) : V := listOf [.sym "quasiquote", t]
def splice (t : V) : V := listOf [.sym "unquote-splicing", t]

/-- A template that is neither a pair nor a vector. -/
def Atom (t : V) : Prop := (∀ a d, t ≠ .pair a d) ∧ (∀ e, t ≠ .vec e)

/-- The pair `(a . d)` does not start one of the three forms. -/
def Ordinary (a : V) : Prop := a ≠ .sym "unquote" ∧ a ≠ .sym "quasiquote" ∧ ∀ r, a ≠ .pair (.sym "unquote-splicing") r

/-- Templates of level `k` whose unquotations all have a level above one. -/
inductive Plain : Nat → V → Prop
  | atom {k t} : Atom t → Plain k t
  | unquote {k t} : Plain (k + 1) t → Plain (k + 2) (unq t)
  | quasi {k t} : Plain (k + 1) t → Plain k (qq t)
  /-- an inner splice; what follows is the rest of a proper list or another pair -/
  | splice {k t d} : Plain (k + 1) (listOf [t]) → Plain (k + 2) d → (d = .nil ∨ ∃ x y, d = .pair x y) →
      Plain (k + 2) (.pair (splice t) d)
  | pair {k a d} : Ordinary a → Plain k a → Plain k d → Plain k (.pair a d)
  | vec {k xs} : Plain k (listOf xs) → Plain k (.vec (listOf xs))

/-- A vector template's outcome from that of the list of its elements. -/
inductive ToVec : Out V → Out V → Prop
  | ok {xs} : ToVec (.ok (listOf xs)) (.ok (.vec (listOf xs)))
  | stop {e} : ToVec (.stop e) (.stop e)

/-- `(a . d)` from the outcome of `d`, once `a` is known: any constructor applied to a value, errors pass. -/
def mapOut (f : V → V) : Out V → Out V
  | .ok v => .ok (f v)
  | .stop e => .stop e

/-- The value of template `t` of level `k`, given the evaluation relation `E` of the unquoted expressions. -/
inductive Fill (E : EnvId → V → St σ → Out V → St σ → Prop) (env : EnvId) : Nat → V → St σ → Out V → St σ → Prop
  | atom {k t s} : Atom t → Fill E env k t s (.ok t) s
  /-- level one: the value of the expression -/
  | unquote {e s o s'} : E env e s o s' → Fill E env 1 (unq e) s o s'
  | unquoteIn {k t s o s'} : Fill E env (k + 1) t s o s' → Fill E env (k + 2) (unq t) s (mapOut unq o) s'
  | quasi {k t s o s'} : Fill E env (k + 1) t s o s' → Fill E env k (qq t) s (mapOut qq o) s'
  /-- level one: the elements of the list value, followed by the rest -/
  | splice {e d s vs s1 o s'} : E env e s (.ok (listOf vs)) s1 → Fill E env 1 d s1 o s' →
      Fill E env 1 (.pair (splice e) d) s (mapOut (fun r => vs.foldr V.pair r) o) s'
  | spliceStop {e d s x s'} : E env e s (.stop x) s' → Fill E env 1 (.pair (splice e) d) s (.stop x) s'
  | spliceIn {k t d s v s1 o s'} : Fill E env (k + 1) (listOf [t]) s (.ok v) s1 → Fill E env (k + 2) d s1 o s' →
      (d = .nil ∨ ∃ x y, d = .pair x y) →
      Fill E env (k + 2) (.pair (splice t) d) s (mapOut (fun r => V.pair (.pair (.sym "unquote-splicing") v) r) o) s'
  | spliceInStop {k t d s x s'} : Fill E env (k + 1) (listOf [t]) s (.stop x) s' →
      Fill E env (k + 2) (.pair (splice t) d) s (.stop x) s'
  | pair {k a d s v s1 o s'} : Ordinary a → Fill E env k a s (.ok v) s1 → Fill E env k d s1 o s' →
      Fill E env k (.pair a d) s (mapOut (fun r => V.pair v r) o) s'
  | pairStop {k a d s x s'} : Ordinary a → Fill E env k a s (.stop x) s' → Fill E env k (.pair a d) s (.stop x) s'
  | vec {k xs s o o' s'} : Fill E env k (listOf xs) s o s' → ToVec o o' → Fill E env k (.vec (listOf xs)) s o' s'

/-! ## Lemmas -/

theorem quasi_atom {rec : Rec σ} {env t k} (h : Atom t) (s : St σ) : quasi rec env t k s = some (.ok t, s) := by
  cases t <;> first | rfl | exact absurd rfl (h.1 _ _) | exact absurd rfl (h.2 _)

theorem quasi_unq {rec : Rec σ} {env t k} : quasi rec env (unq t) k =
    if k = 1 then rec (.eval env t) else (do let v ← quasi rec env t (k - 1); pure (unq v)) := by
  unfold unq listOf listOf listOf; rw [quasi]; simp only [if_true]; rfl

theorem quasi_qq {rec : Rec σ} {env t k} : quasi rec env (qq t) k = (do let v ← quasi rec env t (k + 1); pure (qq v)) := by
  unfold qq listOf listOf listOf; rw [quasi]; simp only [if_true, String.reduceEq, if_false]; rfl

theorem quasi_splice {rec : Rec σ} {env t d k} : quasi rec env (.pair (splice t) d) k =
    if k = 1 then do
      let lv ← rec (.eval env t)
      if isList lv = true then do
        let r ← quasi rec env d k
        pure (spliceMerge lv r)
      else evalError "unquote-splicing requires a list"
    else (do
      let ca ← quasi rec env (splice t) (k - 1)
      let cd ← quasi rec env d k
      if isList d = true then pure (.pair ca cd) else pure (listOf [ca, cd])) := by
  unfold splice listOf listOf listOf; rw [quasi]; rfl

theorem quasi_pair {rec : Rec σ} {env a d k} (h : Ordinary a) (s : St σ) :
    quasi rec env (.pair a d) k s = (do let ca ← quasi rec env a k; let cd ← quasi rec env d k; pure (V.pair ca cd)) s := by
  cases a with
  | sym x =>
    have h1 : x ≠ "unquote" := fun hh => h.1 (by rw [hh])
    have h2 : x ≠ "quasiquote" := fun hh => h.2.1 (by rw [hh])
    cases d <;> simp only [quasi, h1, h2, if_false] <;> rfl
  | pair b c =>
    have h1 : b ≠ .sym "unquote-splicing" := fun hh => h.2.2 c (by rw [hh])
    simp only [quasi, h1, if_false]
  | _ => rfl

theorem plain_quasi {rec : Rec σ} {env k t} (h : Plain k t) (hk : 1 ≤ k) (s : St σ) :
    quasi rec env t k s = some (.ok t, s) := by
  induction h generalizing s with
  | atom h => exact quasi_atom h s
  | @unquote k t _ ih =>
    have := ih (by omega) s
    rw [quasi_unq]
    simp only [Nat.add_eq_right, Nat.succ_ne_zero, Nat.reduceEqDiff, if_false, bind_apply, Nat.add_one_sub_one, show k + 2 - 1 = k + 1 from rfl, this]
    rfl
  | @quasi k t _ ih =>
    have := ih (by omega) s
    rw [quasi_qq]
    simp only [bind_apply, this]
    rfl
  | @splice k t d h1 _ hd ih1 ih2 =>
    have e1 : quasi rec env (splice t) (k + 1) s = some (.ok (splice t), s) := by
      unfold splice
      rw [listOf, quasi_pair ⟨(by decide), (by decide), (by intro r hr; cases hr)⟩, bind_apply, quasi_atom ⟨(by intro a b h; cases h), (by intro a h; cases h)⟩]
      simp only [bind_apply]
      rw [ih1 (by omega) s]
      rfl
    have hl : isList d = true := by rcases hd with rfl | ⟨x, y, rfl⟩ <;> rfl
    rw [quasi_splice]
    simp only [Nat.reduceEqDiff, if_false, show ¬ (k + 2 = 1) by omega, show k + 2 - 1 = k + 1 from rfl, bind_apply, e1,
      ih2 (by omega) s, hl, if_true]
    rfl
  | @pair k a d ho _ _ ih1 ih2 =>
    rw [quasi_pair ho, bind_apply, ih1 hk]
    simp only [bind_apply, ih2 hk]
    rfl
  | @vec k xs _ ih =>
    have := ih hk s
    rw [quasi]
    simp only [bind_apply, this, listToVec, isList_listOf, if_true, nodes_listOf]
    rfl

/-- `quasi` computes the value of the template. -/
theorem fill_quasi {P : Prims σ} {env k t s o s'} (h : Fill (Evals P) env k t s o s') (hk : 1 ≤ k) :
    quasi (run P) env t k s = some (o, s') := by
  induction h with
  | atom h => exact quasi_atom h _
  | @unquote e s o s' h =>
    rw [quasi_unq]
    exact evals_iff.1 h
  | @unquoteIn k t s o s' _ ih =>
    have := ih (by omega)
    rw [quasi_unq]
    simp only [show ¬ (k + 2 = 1) by omega, if_false, bind_apply, show k + 2 - 1 = k + 1 from rfl, this]
    cases o <;> rfl
  | @quasi k t s o s' _ ih =>
    have := ih (by omega)
    rw [quasi_qq]
    simp only [bind_apply, this]
    cases o <;> rfl
  | @splice e d s vs s1 o s' h1 _ ih =>
    rw [quasi_splice]
    simp only [if_true, bind_apply, evals_iff.1 h1, isList_listOf, ih (by omega)]
    cases o with
    | stop => rfl
    | ok r =>
      simp only [pure_apply, mapOut, spliceMerge, appendTwo]
      have hlt : ∀ l : List V, listTail l r = l.foldr .pair r := by
        intro l; induction l with
        | nil => rfl
        | cons x xs ih => rw [listTail, ih]; rfl
      have hnil : ∀ l : List V, listOf l = l.foldr .pair .nil := by
        intro l; induction l with
        | nil => rfl
        | cons x xs ih => rw [listOf, ih]; rfl
      cases vs with
      | nil => rfl
      | cons v vs =>
        rw [if_neg (by intro h; cases h)]
        by_cases hr : r = .nil
        · rw [if_pos hr, hr, ← hnil]
        · rw [if_neg hr, nodes_listOf, hlt]
  | @spliceStop e d s x s' h =>
    rw [quasi_splice]
    simp only [if_true, bind_apply, evals_iff.1 h]
  | @spliceIn k t d s v s1 o s' _ _ hd ih1 ih2 =>
    have e1 : quasi (run P) env (splice t) (k + 1) s =
        some (.ok (.pair (.sym "unquote-splicing") v), s1) := by
      unfold splice
      rw [listOf, quasi_pair ⟨(by decide), (by decide), (by intro r hr; cases hr)⟩, bind_apply, quasi_atom ⟨(by intro a b h; cases h), (by intro a h; cases h)⟩]
      simp only [bind_apply]
      rw [ih1 (by omega)]
      rfl
    have hl : isList d = true := by rcases hd with rfl | ⟨x, y, rfl⟩ <;> rfl
    rw [quasi_splice]
    simp only [show ¬ (k + 2 = 1) by omega, if_false, show k + 2 - 1 = k + 1 from rfl, bind_apply, e1,
      ih2 (by omega), hl, if_true]
    cases o <;> rfl
  | @spliceInStop k t d s x s' _ ih =>
    have e1 : quasi (run P) env (splice t) (k + 1) s = some (.stop x, s') := by
      unfold splice
      rw [listOf, quasi_pair ⟨(by decide), (by decide), (by intro r hr; cases hr)⟩, bind_apply, quasi_atom ⟨(by intro a b h; cases h), (by intro a h; cases h)⟩]
      simp only [bind_apply]
      rw [ih (by omega)]
    rw [quasi_splice]
    simp only [show ¬ (k + 2 = 1) by omega, if_false, show k + 2 - 1 = k + 1 from rfl, bind_apply, e1]
  | @pair k a d s v s1 o s' ho _ _ ih1 ih2 =>
    rw [quasi_pair ho, bind_apply, ih1 hk]
    simp only [bind_apply, ih2 hk]
    cases o <;> rfl
  | pairStop ho _ ih =>
    rw [quasi_pair ho, bind_apply, ih hk]
  | @vec k xs s o o' s' _ hv ih =>
    have := ih hk
    rw [quasi]
    simp only [bind_apply, this]
    cases hv with
    | ok => simp only [listToVec, isList_listOf, if_true, nodes_listOf]; rfl
    | stop => rfl

theorem evals_quasi {P : Prims σ} {env t s o s'} (hm : NoMacro s "quasiquote") :
    Evals P env (qq t) s o s' ↔ quasi (run P) env t 1 s = some (o, s') := by
  show Evals P env (.pair (.sym "quasiquote") (.pair t .nil)) s o s' ↔ _
  rw [evals_form (f := .quasiquote) hm (by decide)]
  rfl

/-! ## The properties -/

/-- C58: a template without level-one unquotation evaluates to itself, without any effect.  Partial: `Plain` excludes malformed
forms such as `(unquote)`, and inner splices followed by an atom (`c58_counterexample`). -/
theorem c58_plain_partial (P : Prims σ) (env : EnvId) (t : V) (s : St σ) (hm : NoMacro s "quasiquote") (h : Plain 1 t) :
    Evals P env (qq t) s (.ok t) s :=
  (evals_quasi hm).2 (plain_quasi h (by omega) s)

/-- `` `(a #(1 b) `(c ,d)) ``. -/
example : Evals Demo.prims 0
    (qq (listOf [.sym "a", .vec (listOf [.num 1, .sym "b"]), qq (listOf [.sym "c", unq (.sym "d")])])) Demo.s0
    (.ok (listOf [.sym "a", .vec (listOf [.num 1, .sym "b"]), qq (listOf [.sym "c", unq (.sym "d")])])) Demo.s0 := by
  refine c58_plain_partial _ _ _ _ (Demo.noMacro_s0 _) ?_
  have at' : ∀ {k t}, Atom t → Plain k t := Plain.atom
  have hs : ∀ x, Atom (.sym x) := fun x => ⟨(by intro a b h; cases h), (by intro a h; cases h)⟩
  have hn : ∀ i, Atom (.num i) := fun x => ⟨(by intro a b h; cases h), (by intro a h; cases h)⟩
  have h0 : Atom .nil := ⟨(by intro a b h; cases h), (by intro a h; cases h)⟩
  have o1 : ∀ x, x ≠ "unquote" → x ≠ "quasiquote" → Ordinary (.sym x) :=
    fun x h1 h2 => ⟨(by simpa using h1), (by simpa using h2), (by intro r h; cases h)⟩
  have o2 : ∀ i, Ordinary (.num i) := fun x => ⟨(by intro h; cases h), (by intro h; cases h), (by intro r h; cases h)⟩
  refine .pair (o1 _ (by decide) (by decide)) (.atom (hs _)) (.pair ⟨(by intro h; cases h), (by intro h; cases h), (by intro r h; cases h)⟩
    (.vec (.pair (o2 _) (.atom (hn _)) (.pair (o1 _ (by decide) (by decide)) (.atom (hs _)) (.atom h0)))) ?_)
  refine .pair ⟨(by intro h; cases h), (by intro h; cases h), (by intro r h; simp [qq, listOf] at h)⟩ (.quasi ?_) (.atom h0)
  refine .pair (o1 _ (by decide) (by decide)) (.atom (hs _)) (.pair
    ⟨(by intro h; cases h), (by intro h; cases h), (by intro r h; simp [unq, listOf] at h)⟩ (.unquote (.atom (hs _))) (.atom h0))

/-- An inner splice before a dotted tail: `` `(quasiquote ((unquote-splicing x) . b)) `` becomes a list of two elements. -/
theorem c58_counterexample : ∃ t t' : V, t ≠ t' ∧
    Evals Demo.prims 0 (qq (qq t)) Demo.s0 (.ok (qq t')) Demo.s0 ∧
    t = .pair (splice (.sym "x")) (.sym "b") ∧ t' = listOf [splice (.sym "x"), .sym "b"] :=
  ⟨_, _, by decide, ⟨2, rfl⟩, rfl, rfl⟩

/-- C59: a template evaluates to what the rules say -- unquotations of level one are replaced by their values, level-one
splices by the elements of their list values, inner templates raise the level, everything else is copied, from left to right. -/
theorem c59_fill_partial (P : Prims σ) (env : EnvId) (t : V) (s s' : St σ) (o : Out V) (hm : NoMacro s "quasiquote")
    (h : Fill (Evals P) env 1 t s o s') : Evals P env (qq t) s o s' :=
  (evals_quasi hm).2 (fill_quasi h (by omega))

/-- Splicing something that is not a list is an error. -/
theorem c59_splice_not_list (P : Prims σ) (env : EnvId) (e d v : V) (s s1 : St σ) (hm : NoMacro s "quasiquote")
    (h : Evals P env e s (.ok v) s1) (hv : v ≠ .nil ∧ ∀ a b, v ≠ .pair a b) :
    ∃ m, Evals P env (qq (.pair (splice e) d)) s (.stop (throwStop s1 "error" (listOf [.str m]))) s1 := by
  refine ⟨"unquote-splicing requires a list", (evals_quasi hm).2 ?_⟩
  rw [quasi_splice]
  have hl : ¬ isList v = true := by
    cases v with
    | nil => exact absurd rfl hv.1
    | pair a b => exact absurd rfl (hv.2 a b)
    | _ => intro h; cases h
  simp only [if_true, bind_apply, evals_iff.1 h, if_neg hl]
  rfl

/-- `` `(1 ,(+ 1 2) ,@(list 4 5) . 6) ``. -/
example : Evals Demo.prims 0 (qq (.pair (.num 1) (.pair (unq (listOf [.sym "+", .num 1, .num 2]))
      (.pair (splice (listOf [.sym "list", .num 4, .num 5])) (.num 6))))) Demo.s0
    (.ok (.pair (.num 1) (.pair (.num 3) (.pair (.num 4) (.pair (.num 5) (.num 6)))))) Demo.s0 := by
  have key : Evals Demo.prims 0 _ Demo.s0 (mapOut (fun r => .pair (.num 1) r) (mapOut (fun r => .pair (.num 3) r)
      (mapOut (fun r => [V.num 4, .num 5].foldr V.pair r) (.ok (.num 6))))) Demo.s0 :=
    c59_fill_partial Demo.prims 0 (.pair (.num 1) (.pair (unq (listOf [.sym "+", .num 1, .num 2]))
      (.pair (splice (listOf [.sym "list", .num 4, .num 5])) (.num 6)))) Demo.s0 Demo.s0 _ (Demo.noMacro_s0 _) ?_
  · exact key
  have h0 : ∀ i, Atom (.num i) := fun _ => ⟨(by intro a b h; cases h), (by intro a h; cases h)⟩
  refine .pair ⟨(by decide), (by decide), (by intro r h; cases h)⟩ (.atom (h0 1)) ?_
  refine .pair ⟨(by decide), (by decide), (by intro r h; simp [unq, listOf] at h)⟩ (.unquote (o := .ok (.num 3)) ⟨4, rfl⟩) ?_
  exact .splice (vs := [.num 4, .num 5]) ⟨4, rfl⟩ (.atom (h0 6))

/-- A malformed unquotation is accepted silently: `` `(a unquote) `` gives a pair with the unspecified value. -/
theorem c59_counterexample : Evals Demo.prims 0 (qq (listOf [.sym "a", .sym "unquote"])) Demo.s0
    (.ok (.pair (.sym "a") .none)) Demo.s0 := ⟨2, rfl⟩

/-- The value of a splice that is an improper list loses its tail's role: `` `(,@x 3) `` with `x` bound to `(1 . 2)` is `(1 2 3)`. -/
theorem c59_improper_splice : Evals Demo.prims 0
    (qq (listOf [splice (listOf [.sym "cons", .num 1, .num 2]), .num 3])) Demo.s0
    (.ok (listOf [.num 1, .num 2, .num 3])) Demo.s0 := ⟨5, rfl⟩

end Pscm.Ev
