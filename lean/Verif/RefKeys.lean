import Verif.RefSem
/-! # Expressions of the reference semantics make no global variables -/
namespace Pscm.Ref
variable {B : Builtins}

/-- The same global variables. -/
def SameKeys (st st' : Store) : Prop := ∀ x, (st'.globals.lookup x).isNone = (st.globals.lookup x).isNone

theorem SameKeys.refl (st : Store) : SameKeys st st := fun _ => rfl
theorem SameKeys.trans {a b c : Store} (h : SameKeys a b) (k : SameKeys b c) : SameKeys a c := fun x => (k x).trans (h x)

/-- The result, if any, has the same global variables. -/
def Keeps {α : Type} (st : Store) (a : Ans (α × Store)) : Prop := ∀ q, a = .val q → SameKeys st q.2

theorem Keeps.ret {α : Type} {st : Store} {a : α} : Keeps st (.val (a, st)) := by
  rintro q h
  cases h
  exact .refl st
theorem Keeps.val {α : Type} {st st' : Store} {a : α} (h : SameKeys st st') : Keeps st (.val (a, st')) := by
  rintro q e
  cases e
  exact h
theorem Keeps.unknown {α : Type} {st : Store} : Keeps st (.unknown : Ans (α × Store)) := by rintro q ⟨⟩
theorem Keeps.error {α : Type} {st : Store} {o : Option Store} : Keeps st (.error o : Ans (α × Store)) := by rintro q ⟨⟩

theorem Keeps.vague {α : Type} {st : Store} {a : Ans (α × Store)} (h : Keeps st a) : Keeps st a.vague := by
  cases a with
  | error o => exact .error
  | _ => exact h

theorem Keeps.wrong {α β : Type} {st : Store} {a : Ans α} : Keeps st (a.wrong : Ans (β × Store)) := by
  cases a with
  | unknown => exact .unknown
  | _ => exact .error

theorem Keeps.bind {α β : Type} {st : Store} {a : Ans (α × Store)} {f : α × Store → Ans (β × Store)} (h : Keeps st a) (hf : ∀ q, Keeps q.2 (f q)) :
    Keeps st (a.bind f) := by
  cases a with
  | unknown => exact .unknown
  | error => exact .error
  | val q => exact fun r hr => (h q rfl).trans (hf q r hr)

/-- A store is computed first. -/
theorem Keeps.store {β : Type} {st : Store} {a : Ans Store} {f : Store → Ans (β × Store)} (h : ∀ st', a = .val st' → SameKeys st st')
    (hf : ∀ st, Keeps st (f st)) : Keeps st (a.bind f) := by
  cases a with
  | unknown => exact .unknown
  | error => exact .error
  | val st' => exact fun r hr => (h st' rfl).trans (hf st' r hr)

theorem Keeps.same {α : Type} {st st' : Store} {a : Ans (α × Store)} (h : SameKeys st st') (k : Keeps st' a) : Keeps st a :=
  fun q hq => h.trans (k q hq)

theorem lookup_set_isNone (x : Name) (v : Val) (gs : List (Name × Val)) (h : (gs.lookup x).isNone = false) (y : Name) :
    ((setGlobal x v gs).lookup y).isNone = (gs.lookup y).isNone := by
  induction gs with
  | nil => cases h
  | cons q gs ih =>
    obtain ⟨z, w⟩ := q
    simp only [setGlobal]
    split
    · rename_i hz
      subst hz
      simp only [List.lookup]
      split <;> rfl
    · rename_i hz
      have hzx : (x == z) = false := by simpa using fun e : x = z => hz e.symm
      simp only [List.lookup, hzx] at h ⊢
      split
      · rfl
      · exact ih h

theorem keys_assign {ρ : Env} {st st' : Store} {x : Name} {v : Val} (h : assign ρ st x v = .val st') : SameKeys st st' := by
  unfold assign at h
  split at h
  · split at h
    · cases h
    · cases h
    · cases h; exact .refl st
  · split at h
    · rename_i hg
      cases h
      intro y
      exact lookup_set_isNone x v st.globals (by rw [hg]; rfl) y
    · cases h

theorem keys_assigns {ρ : Env} {xs : List Name} : ∀ {st st' : Store} {vs : List Val}, assigns ρ st xs vs = .val st' → SameKeys st st' := by
  induction xs with
  | nil => intro st st' vs h; simp only [assigns] at h; cases h; exact .refl st
  | cons x xs ih =>
    intro st st' vs h
    cases vs with
    | nil => simp only [assigns] at h; cases h; exact .refl st
    | cons v vs =>
      simp only [assigns] at h
      cases ha : assign ρ st x v with
      | unknown => rw [ha] at h; cases h
      | error => rw [ha] at h; cases h
      | val st1 =>
        rw [ha] at h
        exact (keys_assign ha).trans (ih h)

theorem keys_init {ρ : Env} {st st' : Store} {x : Name} {v : Val} (h : init ρ st x v = .val st') : SameKeys st st' := by
  unfold init at h
  split at h
  · cases h; exact .refl st
  · cases h

theorem keys_enter (xs : List Name) (vs : List Val) (body : List Exp) (ρ : Env) (st : Store) : SameKeys st (enter xs vs body ρ st).2 := fun _ => rfl

/-- With at most `n` nested evaluations. -/
structure KeysAt (B : Builtins) (n : Nat) : Prop where
  eval : ∀ ρ e st, Keeps st (eval B n ρ e st)
  list : ∀ ρ es st, Keeps st (evalList B n ρ es st)
  body : ∀ ρ es st, Keeps st (evalBody B n ρ es st)
  and : ∀ ρ es st, Keeps st (evalAnd B n ρ es st)
  or : ∀ ρ es st, Keeps st (evalOr B n ρ es st)
  cond : ∀ ρ ts bs els st, Keeps st (evalCond B n ρ ts bs els st)
  case : ∀ ρ d ds bs els st, Keeps st (evalCase B n ρ d ds bs els st)
  loop : ∀ ρ ss t rs bs st, Keeps st (evalLoop B n ρ ss t rs bs st)
  template : ∀ ρ t st, Keeps st (evalTemplate B n ρ t st)
  all : ∀ f rs st, Keeps st (applyAll B n f rs st)
  inits : ∀ ρ xs es st, Keeps st (evalInits B n ρ xs es st)
  apply : ∀ f vs st, Keeps st (apply B n f vs st)

theorem keys_zero : KeysAt B 0 := by
  constructor <;> intros <;> simp only [Ref.eval, evalList, evalBody, evalAnd, evalOr, evalCond, evalCase, evalLoop, evalTemplate, applyAll, evalInits, Ref.apply] <;> exact .unknown

theorem keys_eval {n : Nat} (h : KeysAt B n) (ρ : Env) (e : Exp) (st : Store) : Keeps st (eval B (n + 1) ρ e st) := by
  cases e with
  | const c => simp only [Ref.eval]; exact .ret
  | quote d => simp only [Ref.eval]; exact .ret
  | var x =>
    simp only [Ref.eval]
    split
    · exact .unknown
    · exact .unknown
    · exact .ret
    · exact .error
  | lam ps rest body => simp only [Ref.eval]; exact .ret
  | app f args =>
    simp only [Ref.eval]
    refine .bind (h.eval _ _ _) fun q => ?_
    split
    · split
      · exact .wrong
      · exact .bind (h.list _ _ _) fun q => h.apply _ _ _
    · exact .unknown
  | ite c a b =>
    simp only [Ref.eval]
    refine .bind (h.eval _ _ _) fun q => ?_
    split
    · exact h.eval _ _ _
    · exact h.eval _ _ _
  | ite1 c a =>
    simp only [Ref.eval]
    refine .bind (h.eval _ _ _) fun q => ?_
    split
    · exact h.eval _ _ _
    · exact .ret
  | set x e => simp only [Ref.eval]; exact .bind (h.eval _ _ _) fun q => .store (fun _ => keys_assign) fun _ => .ret
  | begin es => simp only [Ref.eval]; exact h.body _ _ _
  | let_ xs es body => simp only [Ref.eval]; exact h.eval _ _ _
  | namedLet f xs es body => simp only [Ref.eval]; exact .bind (h.list _ _ _) fun q => .same (fun _ => rfl) (h.apply _ _ _)
  | letStar xs es body =>
    cases xs with
    | nil => simp only [Ref.eval]; exact h.eval _ _ _
    | cons x xs =>
      cases xs with
      | nil => simp only [Ref.eval]; exact h.eval _ _ _
      | cons y xs => simp only [Ref.eval]; exact h.eval _ _ _
  | letrec xs es body => simp only [Ref.eval]; exact .same (keys_enter _ _ _ _ _) (.bind (h.inits _ _ _ _) fun q => h.body _ _ _)
  | and es => simp only [Ref.eval]; exact h.and _ _ _
  | or es => simp only [Ref.eval]; exact h.or _ _ _
  | cond ts bs els => simp only [Ref.eval]; exact h.cond _ _ _ _ _
  | case k ds bs els =>
    simp only [Ref.eval]
    refine .bind (h.eval _ _ _) fun q => ?_
    split
    · exact h.case _ _ _ _ _ _
    · exact .unknown
  | loop xs es ss t rs bs =>
    simp only [Ref.eval]
    split
    · exact .bind (h.list _ _ _) fun q => .same (fun _ => rfl) (h.loop _ _ _ _ _ _)
    · exact .unknown
  | map f ls =>
    simp only [Ref.eval]
    refine .bind (h.eval _ _ _) fun q => ?_
    split
    · refine .bind (h.list _ _ _).vague fun q => ?_
      split
      · exact .bind (h.all _ _ _) fun q => .ret
      · exact .unknown
    · exact .unknown
  | forEach f ls =>
    simp only [Ref.eval]
    refine .bind (h.eval _ _ _) fun q => ?_
    split
    · refine .bind (h.list _ _ _).vague fun q => ?_
      split
      · split
        · exact .unknown
        · exact .bind (h.all _ _ _) fun q => .ret
      · exact .unknown
    · exact .unknown
  | apply f l =>
    simp only [Ref.eval]
    refine .bind (h.eval _ _ _) fun q => ?_
    split
    · refine .bind (h.eval _ _ _) fun q => ?_
      split
      · exact h.apply _ _ _
      · exact .unknown
    · exact .unknown
  | quasi t => simp only [Ref.eval]; exact h.template _ _ _
  | define x e => simp only [Ref.eval]; exact .bind (h.eval _ _ _) fun q => .store (fun _ => keys_init) fun _ => .ret

theorem keys_succ {n : Nat} (h : KeysAt B n) : KeysAt B (n + 1) where
  eval := keys_eval h
  list := by
    intro ρ es st
    cases es with
    | nil => simp only [evalList]; exact .ret
    | cons e es => simp only [evalList]; exact .bind (h.eval _ _ _) fun q => .bind (h.list _ _ _) fun q => .ret
  body := by
    intro ρ es st
    match es with
    | [] => simp only [evalBody]; exact .unknown
    | [e] => simp only [evalBody]; exact h.eval _ _ _
    | e :: e' :: es => simp only [evalBody]; exact .bind (h.eval _ _ _) fun q => h.body _ _ _
  and := by
    intro ρ es st
    match es with
    | [] => simp only [evalAnd]; exact .ret
    | [e] => simp only [evalAnd]; exact h.eval _ _ _
    | e :: e' :: es =>
      simp only [evalAnd]
      refine .bind (h.eval _ _ _) fun q => ?_
      split
      · exact h.and _ _ _
      · exact .ret
  or := by
    intro ρ es st
    match es with
    | [] => simp only [evalOr]; exact .ret
    | [e] => simp only [evalOr]; exact h.eval _ _ _
    | e :: e' :: es =>
      simp only [evalOr]
      refine .bind (h.eval _ _ _) fun q => ?_
      split
      · exact .ret
      · exact h.or _ _ _
  cond := by
    intro ρ ts bs els st
    match ts, bs, els with
    | [], _, [] => simp only [evalCond]; exact .ret
    | [], _, e :: es => simp only [evalCond]; exact h.body _ _ _
    | t :: ts, b :: bs, els =>
      simp only [evalCond]
      refine .bind (h.eval _ _ _) fun q => ?_
      split
      · exact h.body _ _ _
      · exact h.cond _ _ _ _ _
    | t :: ts, [], els => simp only [evalCond]; exact .unknown
  case := by
    intro ρ d ds bs els st
    match ds, bs with
    | [], _ => simp only [evalCase]; exact h.body _ _ _
    | c :: ds, b :: bs =>
      simp only [evalCase]
      split
      · exact h.body _ _ _
      · exact h.case _ _ _ _ _ _
    | _ :: _, [] => simp only [evalCase]; exact .unknown
  loop := by
    intro ρ ss t rs bs st
    simp only [evalLoop]
    refine .bind (h.eval _ _ _) fun q => ?_
    split
    · split
      · exact .ret
      · exact h.body _ _ _
    · exact .bind (h.list _ _ _) fun q => .bind (h.list _ _ _) fun q => .store (fun _ => keys_assigns) fun _ => h.loop _ _ _ _ _ _
    · exact .unknown
  template := by
    intro ρ t st
    cases t with
    | datum d => simp only [evalTemplate]; exact .ret
    | unquote e => simp only [evalTemplate]; exact h.eval _ _ _
    | splice e t =>
      simp only [evalTemplate]
      refine .bind (h.eval _ _ _) fun q => ?_
      split
      · exact .bind (h.template _ _ _) fun q => .ret
      · exact .unknown
    | pair a d => simp only [evalTemplate]; exact .bind (h.template _ _ _) fun q => .bind (h.template _ _ _) fun q => .ret
  all := by
    intro f rs st
    cases rs with
    | nil => simp only [applyAll]; exact .ret
    | cons r rs => simp only [applyAll]; exact .bind (h.apply _ _ _) fun q => .bind (h.all _ _ _) fun q => .ret
  inits := by
    intro ρ xs es st
    match xs, es with
    | [], [] => simp only [evalInits]; exact .ret
    | x :: xs, e :: es => simp only [evalInits]; exact .bind (h.eval _ _ _) fun q => .store (fun _ => keys_assign) fun _ => h.inits _ _ _ _
    | [], _ :: _ => simp only [evalInits]; exact .unknown
    | _ :: _, [] => simp only [evalInits]; exact .unknown
  apply := by
    intro f vs st
    cases f with
    | clo ps rest body ρ =>
      cases rest with
      | none =>
        simp only [Ref.apply]
        split
        · exact .same (keys_enter _ _ _ _ _) (h.body _ _ _)
        · exact .error
      | some r =>
        simp only [Ref.apply]
        split
        · exact .same (keys_enter _ _ _ _ _) (h.body _ _ _)
        · exact .unknown
    | prim x =>
      simp only [Ref.apply]
      split
      · cases B.ap x vs with
        | unknown => exact .unknown
        | error => exact .error
        | val v =>
          show Keeps st (afterPrint v st (B.prints x vs))
          cases B.prints x vs <;> exact .val fun _ => rfl
      · exact .unknown
    | _ => simp only [Ref.apply]; exact .unknown

/-- The evaluation of an expression neither makes nor removes global variables. -/
theorem keys (B : Builtins) : ∀ n, KeysAt B n
  | 0 => keys_zero
  | n + 1 => keys_succ (keys B n)

end Pscm.Ref
