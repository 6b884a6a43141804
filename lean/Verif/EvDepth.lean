import Verif.EvScopeProps
import Verif.EvFormProps
/-!
# How deep the C stack gets

`Deep P job s vals s' k`: the job succeeds with the values `vals`, and `k` is the greatest number of invocations of `eval_with_env` (src/c/eval.cc:257-925) that
are nested in one another while it runs.  A `goto entry` (src/c/eval.cc:277, 425-450, 544, 686) goes on in the same invocation; every other evaluation is a new,
nested invocation: arguments (src/c/eval.cc:20-31, src/c/procedure.cc:99-263), and the expressions of a procedure body, *including the last* (`eval_with_list`,
src/c/eval.cc:10-18, called at src/c/procedure.cc:263), likewise those of `begin` (src/c/eval.cc:452-474).
Fragment: constants, variables, `quote`, `if`, `begin`, calls of builtins and of procedures, successful runs, no macros, root module.
-/
namespace Pscm.Ev
variable {σ : Type}

/-- Evaluate one expression; evaluate arguments; evaluate a sequence. -/
inductive Job
  | eval (env : EnvId) (e : V)
  | args (env : EnvId) (es : List V)
  | seq (env : EnvId) (es : List V)

/-- Neither a symbol nor a pair. -/
def SelfAtom : V → Prop
  | .sym _ => False
  | .pair _ _ => False
  | _ => True

inductive Deep (P : Prims σ) : Job → St σ → List V → St σ → Nat → Prop
  | atom {env e s} : SelfAtom e → Deep P (.eval env e) s [e] s 1
  | var {env x v s} : Evals P env (.sym x) s (.ok v) s → Deep P (.eval env (.sym x)) s [v] s 1
  | quote {env q v s} : q = "quote" → NoMacro s q → Deep P (.eval env (.pair (.sym q) (.pair v .nil))) s [v] s 1
  | ifTrue {env i c a b s v s1 r s' k1 k2} : i = "if" → NoMacro s i → Deep P (.eval env c) s [v] s1 k1 → v ≠ .bool false →
      Deep P (.eval env a) s1 r s' k2 →
      Deep P (.eval env (.pair (.sym i) (.pair c (.pair a (.pair b .nil))))) s r s' (max (k1 + 1) k2)
  | ifFalse {env i c a b s s1 r s' k1 k2} : i = "if" → NoMacro s i → Deep P (.eval env c) s [.bool false] s1 k1 →
      Deep P (.eval env b) s1 r s' k2 →
      Deep P (.eval env (.pair (.sym i) (.pair c (.pair a (.pair b .nil))))) s r s' (max (k1 + 1) k2)
  | begin {env i x xs rest s r s' k} : i = "begin" → rest = listOf (x :: xs) → NoMacro s i → Deep P (.seq env (x :: xs)) s r s' k →
      Deep P (.eval env (.pair (.sym i) rest)) s r s' (k + 1)
  | operator {env x v rest s r s' k} : s.cur = s.root → NoMacro s x → formOf x = Option.none → isKeyword x = false →
      Evals P env (.sym x) s (.ok v) s → Deep P (.eval env (.pair v rest)) s r s' k → Deep P (.eval env (.pair (.sym x) rest)) s r s' k
  | builtin {env n a es rest s vs s1 v x k} : rest = listOf es → n ∉ interpreterNames → (a = (vs.length : Int) ∧ vs.length ≤ 3 ∨ a = -2) →
      Deep P (.args env es) s vs s1 k → P.call n vs s1.ext = .done (.ok v) x →
      Deep P (.eval env (.pair (.func n a) rest)) s [v] { s1 with ext := x } (k + 1)
  | closure {env ps rst b bs body params es rest penv f s vs s1 r s' k1 k2} : rest = listOf es → params = paramList ps rst → body = listOf (b :: bs) →
      s.frames[penv]? = some f → (ps ++ rst.toList).Nodup → CountOk ps rst es.length →
      Deep P (.args env es) (enter s penv f.modl) vs s1 k1 →
      Deep P (.seq s.frames.length (b :: bs)) (withEntries s1 s.frames.length (callBindings ps rst vs)) r s' k2 →
      Deep P (.eval env (.pair (.proc params body penv) rest)) s r s' (max k1 k2 + 1)
  | argsNil {env s} : Deep P (.args env []) s [] s 0
  | argsCons {env e es s v s1 vs s' k1 k2} : Deep P (.eval env e) s [v] s1 k1 → Deep P (.args env es) s1 vs s' k2 →
      Deep P (.args env (e :: es)) s (v :: vs) s' (max k1 k2)
  | seqLast {env e s r s' k} : Deep P (.eval env e) s r s' k → Deep P (.seq env [e]) s r s' k
  | seqNext {env e e2 es s v s1 r s' k1 k2} : Deep P (.eval env e) s [v] s1 k1 → Deep P (.seq env (e2 :: es)) s1 r s' k2 →
      Deep P (.seq env (e :: e2 :: es)) s r s' (max k1 k2)

theorem listOf_inj {xs ys : List V} (h : listOf xs = listOf ys) : xs = ys := by
  induction xs generalizing ys with
  | nil => cases ys with
    | nil => rfl
    | cons y ys => cases h
  | cons x xs ih => cases ys with
    | nil => cases h
    | cons y ys =>
      simp only [listOf, V.pair.injEq] at h
      rw [h.1, ih h.2]

theorem paramList_inj {ps qs : List Name} {r t : Option Name} (h : paramList ps r = paramList qs t) : ps = qs ∧ r = t := by
  induction ps generalizing qs with
  | nil => cases qs with
    | nil => cases r <;> cases t <;> simp_all [paramList]
    | cons q qs => cases r <;> simp [paramList] at h
  | cons p ps ih => cases qs with
    | nil => cases t <;> simp [paramList] at h
    | cons q qs =>
      simp only [paramList, V.pair.injEq, V.sym.injEq] at h
      obtain ⟨h1, h2⟩ := ih h.2
      exact ⟨by rw [h.1, h1], h2⟩

/-- The result and the depth are determined. -/
theorem Deep.det {P : Prims σ} {j : Job} {s s1 : St σ} {r : List V} {k : Nat} (h : Deep P j s r s1 k) :
    ∀ {r' s2 k'}, Deep P j s r' s2 k' → r = r' ∧ s1 = s2 ∧ k = k' := by
  induction h with
  | atom ha =>
    intro r' s2 k' h'
    cases h' with
    | atom => exact ⟨rfl, rfl, rfl⟩
    | _ => cases ha
  | var hx =>
    intro r' s2 k' h'
    cases h' with
    | atom ha => cases ha
    | var hy => obtain ⟨h1, _⟩ := evals_det hx hy; cases h1; exact ⟨rfl, rfl, rfl⟩
  | quote hq =>
    intro r' s2 k' h'
    cases h' with
    | atom ha => cases ha
    | quote => exact ⟨rfl, rfl, rfl⟩
    | begin hi => rw [hq] at hi; exact absurd hi (by decide)
    | operator _ _ hf => rw [hq] at hf; exact absurd hf (by decide)
  | ifTrue hi _ _ hv _ ih1 ih2 =>
    intro r' s2 k' h'
    cases h' with
    | atom ha => cases ha
    | ifTrue _ _ h1 _ h2 =>
      obtain ⟨_, rfl, rfl⟩ := ih1 h1
      obtain ⟨rfl, rfl, rfl⟩ := ih2 h2
      exact ⟨rfl, rfl, rfl⟩
    | ifFalse _ _ h1 h2 =>
      obtain ⟨he, _, _⟩ := ih1 h1
      cases he
      exact absurd rfl hv
    | begin hj => rw [hi] at hj; exact absurd hj (by decide)
    | operator _ _ hf => rw [hi] at hf; exact absurd hf (by decide)
  | ifFalse hi _ _ _ ih1 ih2 =>
    intro r' s2 k' h'
    cases h' with
    | atom ha => cases ha
    | ifTrue _ _ h1 hv h2 =>
      obtain ⟨he, _, _⟩ := ih1 h1
      cases he
      exact absurd rfl hv
    | ifFalse _ _ h1 h2 =>
      obtain ⟨_, rfl, rfl⟩ := ih1 h1
      obtain ⟨rfl, rfl, rfl⟩ := ih2 h2
      exact ⟨rfl, rfl, rfl⟩
    | begin hj => rw [hi] at hj; exact absurd hj (by decide)
    | operator _ _ hf => rw [hi] at hf; exact absurd hf (by decide)
  | begin hi hr _ _ ih =>
    intro r' s2 k' h'
    cases h' with
    | atom ha => cases ha
    | quote hj => rw [hi] at hj; exact absurd hj (by decide)
    | ifTrue hj => rw [hi] at hj; exact absurd hj (by decide)
    | ifFalse hj => rw [hi] at hj; exact absurd hj (by decide)
    | begin _ hr' _ h1 =>
      rw [hr] at hr'
      have := listOf_inj hr'
      cases this
      obtain ⟨rfl, rfl, rfl⟩ := ih h1
      exact ⟨rfl, rfl, rfl⟩
    | operator _ _ hf => rw [hi] at hf; exact absurd hf (by decide)
  | operator _ _ hf _ hx _ ih =>
    intro r' s2 k' h'
    cases h' with
    | atom ha => cases ha
    | quote hi => rw [hi] at hf; exact absurd hf (by decide)
    | ifTrue hi => rw [hi] at hf; exact absurd hf (by decide)
    | ifFalse hi => rw [hi] at hf; exact absurd hf (by decide)
    | begin hi => rw [hi] at hf; exact absurd hf (by decide)
    | operator _ _ _ _ hy h1 =>
      obtain ⟨h2, _⟩ := evals_det hx hy
      cases h2
      exact ih h1
  | builtin hr hn ha _ hc ih =>
    intro r' s2 k' h'
    cases h' with
    | atom ha => cases ha
    | builtin hr' _ _ h1 hc' =>
      rw [hr] at hr'
      have := listOf_inj hr'
      subst this
      obtain ⟨rfl, rfl, rfl⟩ := ih h1
      rw [hc] at hc'
      cases hc'
      exact ⟨rfl, rfl, rfl⟩
  | closure hr hp hb hf _ _ _ _ ih1 ih2 =>
    intro r' s2 k' h'
    cases h' with
    | atom ha => cases ha
    | closure hr' hp' hb' hf' _ _ h1 h2 =>
      rw [hr] at hr'
      have := listOf_inj hr'
      subst this
      rw [hp] at hp'
      obtain ⟨rfl, rfl⟩ := paramList_inj hp'
      rw [hb] at hb'
      have := listOf_inj hb'
      cases this
      rw [hf] at hf'
      cases hf'
      obtain ⟨rfl, rfl, rfl⟩ := ih1 h1
      obtain ⟨rfl, rfl, rfl⟩ := ih2 h2
      exact ⟨rfl, rfl, rfl⟩
  | argsNil => intro r' s2 k' h'; cases h'; exact ⟨rfl, rfl, rfl⟩
  | argsCons _ _ ih1 ih2 =>
    intro r' s2 k' h'
    cases h' with
    | argsCons h1 h2 =>
      obtain ⟨he, rfl, rfl⟩ := ih1 h1
      cases he
      obtain ⟨rfl, rfl, rfl⟩ := ih2 h2
      exact ⟨rfl, rfl, rfl⟩
  | seqLast _ ih =>
    intro r' s2 k' h'
    cases h' with
    | seqLast h1 => exact ih h1
  | seqNext _ _ ih1 ih2 =>
    intro r' s2 k' h'
    cases h' with
    | seqNext h1 h2 =>
      obtain ⟨_, rfl, rfl⟩ := ih1 h1
      obtain ⟨rfl, rfl, rfl⟩ := ih2 h2
      exact ⟨rfl, rfl, rfl⟩

end Pscm.Ev
