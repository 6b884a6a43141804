import Verif.RefSim4
import Verif.RefSem
/-!
# More steps do not change an answer of the reference semantics

The number in `eval` and the other functions only bounds the work; an answer other than "unknown" is the answer for every larger number.  From this, the semantics as
inference rules (`EvalsTo`, ...), for computing meanings by hand.
-/
namespace Pscm.Ref

/-- `b` is `a`, unless `a` is unknown. -/
def Ans.le {α : Type} (a b : Ans α) : Prop := a = .unknown ∨ a = b

theorem Ans.le_refl {α : Type} (a : Ans α) : a.le a := .inr rfl
theorem Ans.unknown_le {α : Type} (b : Ans α) : (Ans.unknown : Ans α).le b := .inl rfl

theorem Ans.le_trans {α : Type} {a b c : Ans α} (h : a.le b) (k : b.le c) : a.le c := by
  rcases h with rfl | rfl
  · exact .inl rfl
  · exact k

theorem Ans.bind_le {α β : Type} {a b : Ans α} {f g : α → Ans β} (h : a.le b) (hf : ∀ x, (f x).le (g x)) : (a.bind f).le (b.bind g) := by
  rcases h with rfl | rfl
  · exact .inl rfl
  · cases a with
    | val x => exact hf x
    | error => exact .inr rfl
    | unknown => exact .inl rfl

theorem Ans.vague_le {α : Type} {a b : Ans α} (h : a.le b) : a.vague.le b.vague := by
  rcases h with rfl | rfl
  · exact .inl rfl
  · exact .inr rfl

theorem Ans.wrong_le {α β : Type} {a b : Ans α} (h : a.le b) : (a.wrong : Ans β).le b.wrong := by
  rcases h with rfl | rfl
  · exact .inl rfl
  · exact .inr rfl

variable {B : Builtins}

/-- One more step. -/
structure Mono (B : Builtins) (n : Nat) : Prop where
  eval : ∀ ρ e st, (eval B n ρ e st).le (eval B (n + 1) ρ e st)
  list : ∀ ρ es st, (evalList B n ρ es st).le (evalList B (n + 1) ρ es st)
  body : ∀ ρ es st, (evalBody B n ρ es st).le (evalBody B (n + 1) ρ es st)
  and : ∀ ρ es st, (evalAnd B n ρ es st).le (evalAnd B (n + 1) ρ es st)
  or : ∀ ρ es st, (evalOr B n ρ es st).le (evalOr B (n + 1) ρ es st)
  cond : ∀ ρ ts bs els st, (evalCond B n ρ ts bs els st).le (evalCond B (n + 1) ρ ts bs els st)
  case : ∀ ρ d ds bs els st, (evalCase B n ρ d ds bs els st).le (evalCase B (n + 1) ρ d ds bs els st)
  loop : ∀ ρ ss t rs bs st, (evalLoop B n ρ ss t rs bs st).le (evalLoop B (n + 1) ρ ss t rs bs st)
  template : ∀ ρ t st, (evalTemplate B n ρ t st).le (evalTemplate B (n + 1) ρ t st)
  all : ∀ f rs st, (applyAll B n f rs st).le (applyAll B (n + 1) f rs st)
  inits : ∀ ρ xs es st, (evalInits B n ρ xs es st).le (evalInits B (n + 1) ρ xs es st)
  apply : ∀ f vs st, (apply B n f vs st).le (apply B (n + 1) f vs st)

theorem mono_zero : Mono B 0 where
  eval := fun _ _ _ => .inl (by simp [Ref.eval])
  list := fun _ _ _ => .inl (by simp [evalList])
  body := fun _ _ _ => .inl (by simp [evalBody])
  and := fun _ _ _ => .inl (by simp [evalAnd])
  or := fun _ _ _ => .inl (by simp [evalOr])
  cond := fun _ _ _ _ _ => .inl (by simp [evalCond])
  case := fun _ _ _ _ _ _ => .inl (by simp [evalCase])
  loop := fun _ _ _ _ _ _ => .inl (by simp [evalLoop])
  template := fun _ _ _ => .inl (by simp [evalTemplate])
  all := fun _ _ _ => .inl (by simp [applyAll])
  inits := fun _ _ _ _ => .inl (by simp [evalInits])
  apply := fun _ _ _ => .inl (by simp [Ref.apply])

theorem mono_eval {n : Nat} (h : Mono B n) (ρ : Env) (e : Exp) (st : Store) : (eval B (n + 1) ρ e st).le (eval B (n + 1 + 1) ρ e st) := by
  cases e with
  | const c => simp only [Ref.eval]; exact .inr rfl
  | quote d => simp only [Ref.eval]; exact .inr rfl
  | var x => simp only [Ref.eval]; exact .inr rfl
  | lam ps rest body => simp only [Ref.eval]; exact .inr rfl
  | app f args =>
    simp only [Ref.eval]
    refine Ans.bind_le (h.eval _ _ _) fun q => ?_
    split
    · split
      · exact Ans.wrong_le (h.list _ _ _)
      · exact Ans.bind_le (h.list _ _ _) fun q => h.apply _ _ _
    · exact .inl rfl
  | ite c a b =>
    simp only [Ref.eval]
    refine Ans.bind_le (h.eval _ _ _) fun q => ?_
    split
    · exact h.eval _ _ _
    · exact h.eval _ _ _
  | ite1 c a =>
    simp only [Ref.eval]
    refine Ans.bind_le (h.eval _ _ _) fun q => ?_
    split
    · exact h.eval _ _ _
    · exact .inr rfl
  | set x e => simp only [Ref.eval]; exact Ans.bind_le (h.eval _ _ _) fun q => .inr rfl
  | begin es => simp only [Ref.eval]; exact h.body _ _ _
  | let_ xs es body => simp only [Ref.eval]; exact h.eval _ _ _
  | namedLet f xs es body => simp only [Ref.eval]; exact Ans.bind_le (h.list _ _ _) fun q => h.apply _ _ _
  | letStar xs es body =>
    cases xs with
    | nil => simp only [Ref.eval]; exact h.eval _ _ _
    | cons x xs =>
      cases xs with
      | nil => simp only [Ref.eval]; exact h.eval _ _ _
      | cons y xs => simp only [Ref.eval]; exact h.eval _ _ _
  | letrec xs es body => simp only [Ref.eval]; exact Ans.bind_le (h.inits _ _ _ _) fun q => h.body _ _ _
  | and es => simp only [Ref.eval]; exact h.and _ _ _
  | or es => simp only [Ref.eval]; exact h.or _ _ _
  | cond ts bs els => simp only [Ref.eval]; exact h.cond _ _ _ _ _
  | case k ds bs els =>
    simp only [Ref.eval]
    refine Ans.bind_le (h.eval _ _ _) fun q => ?_
    split
    · exact h.case _ _ _ _ _ _
    · exact .inl rfl
  | loop xs es ss t rs bs =>
    simp only [Ref.eval]
    split
    · exact Ans.bind_le (h.list _ _ _) fun q => h.loop _ _ _ _ _ _
    · exact .inl rfl
  | map f ls =>
    simp only [Ref.eval]
    refine Ans.bind_le (h.eval _ _ _) fun q => ?_
    split
    · refine Ans.bind_le (Ans.vague_le (h.list _ _ _)) fun q => ?_
      split
      · exact Ans.bind_le (h.all _ _ _) fun q => .inr rfl
      · exact .inl rfl
    · exact .inl rfl
  | forEach f ls =>
    simp only [Ref.eval]
    refine Ans.bind_le (h.eval _ _ _) fun q => ?_
    split
    · refine Ans.bind_le (Ans.vague_le (h.list _ _ _)) fun q => ?_
      split
      · split
        · exact .inl rfl
        · exact Ans.bind_le (h.all _ _ _) fun q => .inr rfl
      · exact .inl rfl
    · exact .inl rfl
  | apply f l =>
    simp only [Ref.eval]
    refine Ans.bind_le (h.eval _ _ _) fun q => ?_
    split
    · refine Ans.bind_le (h.eval _ _ _) fun q => ?_
      split
      · exact h.apply _ _ _
      · exact .inl rfl
    · exact .inl rfl
  | quasi t => simp only [Ref.eval]; exact h.template _ _ _
  | define x e => simp only [Ref.eval]; exact Ans.bind_le (h.eval _ _ _) fun q => .inr rfl

theorem mono_succ {n : Nat} (h : Mono B n) : Mono B (n + 1) where
  eval := mono_eval h
  list := by
    intro ρ es st
    cases es with
    | nil => simp only [evalList]; exact .inr rfl
    | cons e es => simp only [evalList]; exact Ans.bind_le (h.eval _ _ _) fun q => Ans.bind_le (h.list _ _ _) fun q => .inr rfl
  body := by
    intro ρ es st
    match es with
    | [] => simp only [evalBody]; exact .inl rfl
    | [e] => simp only [evalBody]; exact h.eval _ _ _
    | e :: e' :: es => simp only [evalBody]; exact Ans.bind_le (h.eval _ _ _) fun q => h.body _ _ _
  and := by
    intro ρ es st
    match es with
    | [] => simp only [evalAnd]; exact .inr rfl
    | [e] => simp only [evalAnd]; exact h.eval _ _ _
    | e :: e' :: es =>
      simp only [evalAnd]
      refine Ans.bind_le (h.eval _ _ _) fun q => ?_
      split
      · exact h.and _ _ _
      · exact .inr rfl
  or := by
    intro ρ es st
    match es with
    | [] => simp only [evalOr]; exact .inr rfl
    | [e] => simp only [evalOr]; exact h.eval _ _ _
    | e :: e' :: es =>
      simp only [evalOr]
      refine Ans.bind_le (h.eval _ _ _) fun q => ?_
      split
      · exact .inr rfl
      · exact h.or _ _ _
  cond := by
    intro ρ ts bs els st
    match ts, bs, els with
    | [], _, [] => simp only [evalCond]; exact .inr rfl
    | [], _, e :: es => simp only [evalCond]; exact h.body _ _ _
    | t :: ts, b :: bs, els =>
      simp only [evalCond]
      refine Ans.bind_le (h.eval _ _ _) fun q => ?_
      split
      · exact h.body _ _ _
      · exact h.cond _ _ _ _ _
    | t :: ts, [], els => simp only [evalCond]; exact .inl rfl
  case := by
    intro ρ d ds bs els st
    match ds, bs with
    | [], _ => simp only [evalCase]; exact h.body _ _ _
    | c :: ds, b :: bs =>
      simp only [evalCase]
      split
      · exact h.body _ _ _
      · exact h.case _ _ _ _ _ _
    | _ :: _, [] => simp only [evalCase]; exact .inl rfl
  loop := by
    intro ρ ss t rs bs st
    simp only [evalLoop]
    refine Ans.bind_le (h.eval _ _ _) fun q => ?_
    split
    · split
      · exact .inr rfl
      · exact h.body _ _ _
    · exact Ans.bind_le (h.list _ _ _) fun q => Ans.bind_le (h.list _ _ _) fun q => Ans.bind_le (.inr rfl) fun q => h.loop _ _ _ _ _ _
    · exact .inl rfl
  template := by
    intro ρ t st
    cases t with
    | datum d => simp only [evalTemplate]; exact .inr rfl
    | unquote e => simp only [evalTemplate]; exact h.eval _ _ _
    | splice e t =>
      simp only [evalTemplate]
      refine Ans.bind_le (h.eval _ _ _) fun q => ?_
      split
      · exact Ans.bind_le (h.template _ _ _) fun q => .inr rfl
      · exact .inl rfl
    | pair a d => simp only [evalTemplate]; exact Ans.bind_le (h.template _ _ _) fun q => Ans.bind_le (h.template _ _ _) fun q => .inr rfl
  all := by
    intro f rs st
    cases rs with
    | nil => simp only [applyAll]; exact .inr rfl
    | cons r rs => simp only [applyAll]; exact Ans.bind_le (h.apply _ _ _) fun q => Ans.bind_le (h.all _ _ _) fun q => .inr rfl
  inits := by
    intro ρ xs es st
    match xs, es with
    | [], [] => simp only [evalInits]; exact .inr rfl
    | x :: xs, e :: es =>
      simp only [evalInits]
      exact Ans.bind_le (h.eval _ _ _) fun q => Ans.bind_le (.inr rfl) fun q => h.inits _ _ _ _
    | [], _ :: _ => simp only [evalInits]; exact .inl rfl
    | _ :: _, [] => simp only [evalInits]; exact .inl rfl
  apply := by
    intro f vs st
    cases f with
    | clo ps rest body ρ =>
      cases rest with
      | none =>
        simp only [Ref.apply]
        split
        · exact h.body _ _ _
        · exact .inr rfl
      | some r =>
        simp only [Ref.apply]
        split
        · exact h.body _ _ _
        · exact .inl rfl
    | _ => simp only [Ref.apply]; exact .inr rfl

theorem mono (B : Builtins) : ∀ n, Mono B n
  | 0 => mono_zero
  | n + 1 => mono_succ (mono B n)

theorem le_of_step {α : Type} {f : Nat → Ans α} (h : ∀ n, (f n).le (f (n + 1))) {m n : Nat} (hmn : m ≤ n) : (f m).le (f n) := by
  induction hmn with
  | refl => exact Ans.le_refl _
  | step _ ih => exact Ans.le_trans ih (h _)

theorem val_of_le {α : Type} {a b : Ans α} {x : α} (h : a.le b) (ha : a = .val x) : b = .val x := by
  rcases h with h | h
  · rw [ha] at h; cases h
  · rw [← h]; exact ha

/-! ## The rules -/

/-- The expression has this value, and leaves this store. -/
def EvalsTo (B : Builtins) (ρ : Env) (e : Exp) (st : Store) (v : Val) (st' : Store) : Prop := ∃ n, eval B n ρ e st = .val (v, st')
def ListTo (B : Builtins) (ρ : Env) (es : List Exp) (st : Store) (vs : List Val) (st' : Store) : Prop := ∃ n, evalList B n ρ es st = .val (vs, st')
def BodyTo (B : Builtins) (ρ : Env) (es : List Exp) (st : Store) (v : Val) (st' : Store) : Prop := ∃ n, evalBody B n ρ es st = .val (v, st')
def ApplyTo (B : Builtins) (f : Val) (vs : List Val) (st : Store) (v : Val) (st' : Store) : Prop := ∃ n, apply B n f vs st = .val (v, st')
def CondTo (B : Builtins) (ρ : Env) (ts : List Exp) (bs : List (List Exp)) (els : List Exp) (st : Store) (v : Val) (st' : Store) : Prop :=
  ∃ n, evalCond B n ρ ts bs els st = .val (v, st')
def AndTo (B : Builtins) (ρ : Env) (es : List Exp) (st : Store) (v : Val) (st' : Store) : Prop := ∃ n, evalAnd B n ρ es st = .val (v, st')

theorem EvalsTo.more {ρ e st v st' n m} (h : eval B n ρ e st = .val (v, st')) (hm : n ≤ m) : eval B m ρ e st = .val (v, st') :=
  val_of_le (le_of_step (f := fun n => eval B n ρ e st) (fun n => (mono B n).eval ρ e st) hm) h
theorem ListTo.more {ρ es st vs st' n m} (h : evalList B n ρ es st = .val (vs, st')) (hm : n ≤ m) : evalList B m ρ es st = .val (vs, st') :=
  val_of_le (le_of_step (f := fun n => evalList B n ρ es st) (fun n => (mono B n).list ρ es st) hm) h
theorem BodyTo.more {ρ es st v st' n m} (h : evalBody B n ρ es st = .val (v, st')) (hm : n ≤ m) : evalBody B m ρ es st = .val (v, st') :=
  val_of_le (le_of_step (f := fun n => evalBody B n ρ es st) (fun n => (mono B n).body ρ es st) hm) h
theorem ApplyTo.more {f vs st v st' n m} (h : Ref.apply B n f vs st = .val (v, st')) (hm : n ≤ m) : Ref.apply B m f vs st = .val (v, st') :=
  val_of_le (le_of_step (f := fun n => Ref.apply B n f vs st) (fun n => (mono B n).apply f vs st) hm) h
theorem CondTo.more {ρ ts bs els st v st' n m} (h : evalCond B n ρ ts bs els st = .val (v, st')) (hm : n ≤ m) : evalCond B m ρ ts bs els st = .val (v, st') :=
  val_of_le (le_of_step (f := fun n => evalCond B n ρ ts bs els st) (fun n => (mono B n).cond ρ ts bs els st) hm) h
theorem AndTo.more {ρ es st v st' n m} (h : evalAnd B n ρ es st = .val (v, st')) (hm : n ≤ m) : evalAnd B m ρ es st = .val (v, st') :=
  val_of_le (le_of_step (f := fun n => evalAnd B n ρ es st) (fun n => (mono B n).and ρ es st) hm) h

section
variable {ρ : Env} {st st1 st2 : Store} {v w : Val} {vs : List Val} {e e' f a b : Exp} {es args : List Exp}

theorem EvalsTo.const (c : Const) : EvalsTo B ρ (.const c) st c.toVal st := ⟨1, by simp only [eval]⟩
theorem EvalsTo.quote (d : Datum) : EvalsTo B ρ (.quote d) st d.toVal st := ⟨1, by simp only [eval]⟩

theorem EvalsTo.var {x : Name} (h : look ρ st x = some v) (h1 : v ≠ .undefined) (h2 : v ≠ .unassigned) : EvalsTo B ρ (.var x) st v st := by
  refine ⟨1, ?_⟩
  simp only [eval, h]

theorem ListTo.nil : ListTo B ρ [] st [] st := ⟨1, by simp only [evalList]⟩

theorem ListTo.cons (h : EvalsTo B ρ e st v st1) (k : ListTo B ρ es st1 vs st2) : ListTo B ρ (e :: es) st (v :: vs) st2 := by
  obtain ⟨n, h⟩ := h
  obtain ⟨m, k⟩ := k
  refine ⟨max n m + 1, ?_⟩
  simp only [evalList, EvalsTo.more h (Nat.le_max_left n m), ListTo.more k (Nat.le_max_right n m), Ans.bind]

theorem evalList_length {n : Nat} {ρ : Env} (es : List Exp) {st : Store} {q : List Val × Store} (h : evalList B n ρ es st = .val q) : q.1.length = es.length := by
  induction es generalizing n st q with
  | nil =>
    cases n with
    | zero => simp only [evalList] at h; cases h
    | succ n => simp only [evalList] at h; cases h; rfl
  | cons e es ih =>
    cases n with
    | zero => simp only [evalList] at h; cases h
    | succ n =>
      simp only [evalList] at h
      cases h1 : eval B n ρ e st with
      | unknown => rw [h1] at h; cases h
      | error o => rw [h1] at h; cases h
      | val r =>
        rw [h1] at h
        simp only [Ans.bind] at h
        cases h2 : evalList B n ρ es r.2 with
        | unknown => rw [h2] at h; cases h
        | error o => rw [h2] at h; cases h
        | val t =>
          rw [h2] at h
          simp only [] at h
          cases h
          simp [ih h2]

/-- A call with a result is none that is noticed to be an error. -/
theorem fits_of_val {n : Nat} {f : Val} {vs : List Val} {st : Store} {q : Val × Store} (h : apply B n f vs st = .val q) : misfit vs.length f = false := by
  cases n with
  | zero => simp only [Ref.apply] at h; cases h
  | succ n =>
    cases f with
    | clo ps rest body ρ =>
      cases rest with
      | some r => rfl
      | none =>
        simp only [Ref.apply] at h
        split at h
        · rename_i hl
          simp [misfit, hl]
        · cases h
    | prim x => rfl
    | _ => simp only [Ref.apply] at h; cases h

theorem EvalsTo.app (h : EvalsTo B ρ f st w st1) (hc : callable B w = true) (k : ListTo B ρ args st1 vs st2) {st3 : Store} (l : ApplyTo B w vs st2 v st3) :
    EvalsTo B ρ (.app f args) st v st3 := by
  obtain ⟨n, h⟩ := h
  obtain ⟨m, k⟩ := k
  obtain ⟨o, l⟩ := l
  refine ⟨max n (max m o) + 1, ?_⟩
  have hm : misfit args.length w = false := by
    rw [← evalList_length args k]
    exact fits_of_val l
  simp only [eval, EvalsTo.more h (Nat.le_max_left n _), Ans.bind, hc, hm, Bool.false_eq_true, if_false, if_true, ListTo.more k (show m ≤ max n (max m o) by omega),
    ApplyTo.more l (show o ≤ max n (max m o) by omega)]

theorem ApplyTo.prim {x : Name} (hd : B.dom x = true) (h : B.ap x vs = .val v) (hp : B.prints x vs = []) : ApplyTo B (.prim x) vs st v st :=
  ⟨1, by simp only [Ref.apply, hd, if_true, h, Ans.bind, hp, afterPrint]⟩

/-- A call of a builtin held by a variable. -/
theorem EvalsTo.prim {x y : Name} (hx : look ρ st x = some (.prim y)) (hd : B.dom y = true) (k : ListTo B ρ args st vs st1) (h : B.ap y vs = .val v)
    (hp : B.prints y vs = [] := by rfl) : EvalsTo B ρ (.app (.var x) args) st v st1 :=
  .app (.var hx (by simp) (by simp)) hd k (.prim hd h hp)

theorem ApplyTo.clo {ps : List Name} {ρ' : Env} (hl : vs.length = ps.length) (h : BodyTo B (enter ps vs es ρ' st).1 es (enter ps vs es ρ' st).2 v st1) :
    ApplyTo B (.clo ps none es ρ') vs st v st1 := by
  obtain ⟨n, h⟩ := h
  exact ⟨n + 1, by simp only [Ref.apply, hl, if_true, h]⟩

theorem BodyTo.one (h : EvalsTo B ρ e st v st1) : BodyTo B ρ [e] st v st1 := by
  obtain ⟨n, h⟩ := h
  exact ⟨n + 1, by simp only [evalBody, h]⟩

theorem EvalsTo.let {xs : List Name} (k : ListTo B ρ args st vs st1) (hl : vs.length = xs.length)
    (h : BodyTo B (enter xs vs es ρ st1).1 es (enter xs vs es ρ st1).2 v st2) : EvalsTo B ρ (.let_ xs args es) st v st2 := by
  have : EvalsTo B ρ (.app (.lam xs none es) args) st v st2 := .app ⟨1, by simp only [eval]⟩ rfl k (.clo hl h)
  obtain ⟨n, h⟩ := this
  exact ⟨n + 1, by rw [eval]; exact h⟩

theorem EvalsTo.namedLet {x : Name} {xs : List Name} (k : ListTo B ρ args st vs st1)
    (h : ApplyTo B (.clo xs none [e] ((x, st1.cells.length) :: ρ)) vs { st1 with cells := st1.cells ++ [.clo xs none [e] ((x, st1.cells.length) :: ρ)] } v st2) :
    EvalsTo B ρ (.namedLet x xs args e) st v st2 := by
  obtain ⟨m, k⟩ := k
  obtain ⟨n, h⟩ := h
  refine ⟨max m n + 1, ?_⟩
  simp only [eval, ListTo.more k (Nat.le_max_left m n), Ans.bind, ApplyTo.more h (Nat.le_max_right m n)]

theorem EvalsTo.cond {bs : List (List Exp)} (h : CondTo B ρ args bs es st v st1) : EvalsTo B ρ (.cond args bs es) st v st1 := by
  obtain ⟨n, h⟩ := h
  exact ⟨n + 1, by simp only [eval, h]⟩

theorem CondTo.yes {bs : List (List Exp)} {bd els : List Exp} (h : EvalsTo B ρ e st w st1) (hw : w.isTrue = true) (k : BodyTo B ρ bd st1 v st2) :
    CondTo B ρ (e :: es) (bd :: bs) els st v st2 := by
  obtain ⟨n, h⟩ := h
  obtain ⟨m, k⟩ := k
  refine ⟨max n m + 1, ?_⟩
  simp only [evalCond, EvalsTo.more h (Nat.le_max_left n m), Ans.bind, hw, if_true, BodyTo.more k (Nat.le_max_right n m)]

theorem CondTo.no {bs : List (List Exp)} {bd els : List Exp} (h : EvalsTo B ρ e st w st1) (hw : w.isTrue = false) (k : CondTo B ρ es bs els st1 v st2) :
    CondTo B ρ (e :: es) (bd :: bs) els st v st2 := by
  obtain ⟨n, h⟩ := h
  obtain ⟨m, k⟩ := k
  refine ⟨max n m + 1, ?_⟩
  simp only [evalCond, EvalsTo.more h (Nat.le_max_left n m), Ans.bind, hw, Bool.false_eq_true, if_false, CondTo.more k (Nat.le_max_right n m)]

theorem EvalsTo.and (h : AndTo B ρ es st v st1) : EvalsTo B ρ (.and es) st v st1 := by
  obtain ⟨n, h⟩ := h
  exact ⟨n + 1, by simp only [eval, h]⟩

theorem AndTo.one (h : EvalsTo B ρ e st v st1) : AndTo B ρ [e] st v st1 := by
  obtain ⟨n, h⟩ := h
  exact ⟨n + 1, by simp only [evalAnd, h]⟩

theorem AndTo.next (h : EvalsTo B ρ e st w st1) (hw : w.isTrue = true) (k : AndTo B ρ (e' :: es) st1 v st2) : AndTo B ρ (e :: e' :: es) st v st2 := by
  obtain ⟨n, h⟩ := h
  obtain ⟨m, k⟩ := k
  refine ⟨max n m + 1, ?_⟩
  simp only [evalAnd, EvalsTo.more h (Nat.le_max_left n m), Ans.bind, hw, if_true, AndTo.more k (Nat.le_max_right n m)]

end

/-- Programs: more steps do not change an answer. -/
theorem evalProgram_le (fs : List Form) (st : Store) {m n : Nat} (h : m ≤ n) : (evalProgram B m st fs).le (evalProgram B n st fs) := by
  have hform : ∀ st f, (evalForm B m st f).le (evalForm B n st f) := by
    intro st f
    have he : ∀ e, (eval B m [] e st).le (eval B n [] e st) := fun e =>
      le_of_step (f := fun n => eval B n [] e st) (fun n => (mono B n).eval [] e st) h
    cases f with
    | exp e => exact he e
    | define x e => exact Ans.bind_le (he e) fun q => .inr rfl
    | defun f ps rest body => exact .inr rfl
  induction fs generalizing st with
  | nil => exact .inl rfl
  | cons f fs ih =>
    cases fs with
    | nil => exact hform st f
    | cons g fs => exact Ans.bind_le (hform st f) fun q => ih q.2

end Pscm.Ref
