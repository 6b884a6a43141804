import Verif.CodeMem
/-!
# C120: evaluating an expression does not change it
-/
namespace Pscm.Code

/-! ## Vocabulary -/

def Val.isFunc : Val → Prop
  | .func _ => True
  | _ => False

/-- From `m` to `m'` nothing that existed is lost; the datum of a node never changes, and a node whose datum is not a builtin object does not change at all. -/
def Kept (m m' : Mem) : Prop := ∀ (p : Nat) (nd : Node), m.nodes[p]? = some nd → ∃ nd' : Node, m'.nodes[p]? = some nd' ∧ nd'.data = nd.data ∧ (¬ nd.data.isFunc → nd' = nd)

/-- The builtins change no existing node (`set-car!` and the like are excluded). -/
def Gentle (F : Builtins) : Prop := ∀ f vs m v m', F f vs m = some (v, m') → ∃ new fr, m' = ⟨m.nodes ++ new, fr⟩

/-- The chain at `p` holds exactly the data `vs`. -/
inductive Holds (m : Mem) : Option Nat → List Val → Prop
  | nil : Holds m none []
  | cons {p nd vs} : m.nodes[p]? = some nd → Holds m nd.next vs → Holds m (some p) (nd.data :: vs)

/-! ## Lemmas -/

theorem Kept.refl (m : Mem) : Kept m m := fun _ nd h => ⟨nd, h, rfl, fun _ => rfl⟩

theorem Kept.trans {a b c : Mem} (h : Kept a b) (k : Kept b c) : Kept a c := by
  intro p nd hp
  obtain ⟨x, hx, dx, ex⟩ := h p nd hp
  obtain ⟨y, hy, dy, ey⟩ := k p x hx
  exact ⟨y, hy, dy.trans dx, fun hn => (ey (by rwa [dx])).trans (ex hn)⟩

theorem kept_append (m : Mem) (new : List Node) (fr) : Kept m ⟨m.nodes ++ new, fr⟩ := by
  intro p nd hp
  exact ⟨nd, by rw [List.getElem?_append_left (List.getElem?_eq_some_iff.1 hp).1]; exact hp, rfl, fun _ => rfl⟩

theorem kept_alloc (m : Mem) (nd : Node) : Kept m (alloc m nd).2 := kept_append m [nd] m.frames

theorem kept_allocList (vs : List Val) (m : Mem) : Kept m (allocList vs m).2 := by
  induction vs with
  | nil => exact .refl m
  | cons v vs ih => exact ih.trans (kept_alloc _ _)

theorem kept_setNext {m : Mem} {p : Nat} {nd : Node} (hp : m.nodes[p]? = some nd) (hf : nd.data.isFunc) (q : Option Nat) : Kept m (setNext m p q) := by
  intro i ni hi
  by_cases h : i = p
  · subst h
    rw [hp] at hi
    cases hi
    exact ⟨{ nd with next := q }, by simp [setNext, hp], rfl, fun h => absurd hf h⟩
  · exact ⟨ni, by rw [setNext, List.getElem?_modify_ne _ _ (Ne.symm h)]; exact hi, rfl, fun _ => rfl⟩

theorem kept_all (F : Builtins) (hF : Gentle F) (n : Nat) :
    (∀ env v m o m', eval F n env v m = some (o, m') → Kept m m') ∧
    (∀ env p m o m', evalArgs F n env p m = some (o, m') → Kept m m') ∧
    (∀ env p m o m', evalSeq F n env p m = some (o, m') → Kept m m') := by
  induction n with
  | zero =>
    refine ⟨?_, ?_, ?_⟩
    · intro env v m o m' h; simp [eval] at h
    · intro env v m o m' h; simp [evalArgs] at h
    · intro env v m o m' h; simp [evalSeq] at h
  | succ n ih =>
    obtain ⟨ih1, ih2, ih3⟩ := ih
    refine ⟨?_, ?_, ?_⟩
    · intro env v m o m' h
      cases v with
      | sym x => simp only [eval, Option.some.injEq, Prod.mk.injEq] at h; rw [← h.2]; exact .refl m
      | list p =>
        simp only [eval] at h
        split at h
        · cases h
        · rename_i nd hnd
          split at h
          · split at h <;> (cases h; exact .refl m)
          · split at h
            · split at h
              · cases h
              · rename_i h1; cases h; exact ih1 _ _ _ _ _ h1
              · rename_i h1
                split at h
                · exact (ih1 _ _ _ _ _ h1).trans (ih1 _ _ _ _ _ h)
                · cases h; exact ih1 _ _ _ _ _ h1
            · cases h; exact .refl m
          · split at h
            · cases h; exact .refl m
            · split at h
              · cases h
              · cases h; exact .refl m
          · split at h
            · cases h; exact .refl m
            · exact (kept_alloc _ _).trans (ih1 _ _ _ _ _ h)
          · split at h
            · cases h
            · rename_i h1; cases h; exact ih2 _ _ _ _ _ h1
            · rename_i h1
              split at h
              · exact (ih2 _ _ _ _ _ h1).trans (.trans (by simpa using kept_append _ [] _) (ih3 _ _ _ _ _ h))
              · cases h; exact ih2 _ _ _ _ _ h1
          · rename_i f hd
            split at h
            · cases h
            · rename_i h1; cases h; exact ih2 _ _ _ _ _ h1
            · rename_i vs m1 h1
              have k1 := ih2 _ _ _ _ _ h1
              have k2 := k1.trans (kept_allocList vs m1)
              obtain ⟨nd', hn', hd', _⟩ := k2 p nd hnd
              have k3 := k2.trans (kept_setNext hn' (by rw [hd', hd]; trivial) (allocList vs m1).1)
              split at h
              · rename_i v m2 hf
                cases h
                obtain ⟨new, fr, rfl⟩ := hF _ _ _ _ _ hf
                exact k3.trans (kept_append _ _ _)
              · cases h; exact k3
          · split at h
            · cases h
            · rename_i h1; cases h; exact ih1 _ _ _ _ _ h1
            · rename_i h1
              split at h
              · cases h
              · exact (ih1 _ _ _ _ _ h1).trans ((kept_alloc _ _).trans (ih1 _ _ _ _ _ h))
          · split at h <;> (cases h; exact .refl m)
      | _ => simp only [eval] at h; cases h; exact .refl m
    · intro env p m o m' h
      cases p with
      | none => simp only [evalArgs] at h; cases h; exact .refl m
      | some p =>
        simp only [evalArgs] at h
        split at h
        · cases h
        · split at h
          · cases h
          · rename_i h1; cases h; exact ih1 _ _ _ _ _ h1
          · rename_i h1
            split at h
            · cases h
            · split at h
              · cases h
              · rename_i h2; cases h; exact (ih1 _ _ _ _ _ h1).trans (ih2 _ _ _ _ _ h2)
              · rename_i h2; cases h; exact (ih1 _ _ _ _ _ h1).trans (ih2 _ _ _ _ _ h2)
    · intro env p m o m' h
      cases p with
      | none => simp only [evalSeq] at h; cases h; exact .refl m
      | some p =>
        simp only [evalSeq] at h
        split at h
        · cases h
        · split at h
          · cases h
          · rename_i h1; cases h; exact ih1 _ _ _ _ _ h1
          · rename_i h1
            split at h
            · cases h
            · split at h
              · cases h; exact ih1 _ _ _ _ _ h1
              · exact (ih1 _ _ _ _ _ h1).trans (ih3 _ _ _ _ _ h)

theorem Holds.append {m : Mem} {p : Option Nat} {vs : List Val} (h : Holds m p vs) (new : List Node) (fr) : Holds ⟨m.nodes ++ new, fr⟩ p vs := by
  induction h with
  | nil => exact .nil
  | cons hp _ ih => exact .cons (by rw [List.getElem?_append_left (List.getElem?_eq_some_iff.1 hp).1]; exact hp) ih

theorem holds_allocList (vs : List Val) (m : Mem) : Holds (allocList vs m).2 (allocList vs m).1 vs ∧ ∃ new, (allocList vs m).2 = ⟨m.nodes ++ new, m.frames⟩ ∧
    ∀ q ∈ (allocList vs m).1, m.nodes.length ≤ q := by
  induction vs with
  | nil => exact ⟨.nil, [], by simp [allocList], by simp [allocList]⟩
  | cons v vs ih =>
    obtain ⟨h1, new, h2, h3⟩ := ih
    refine ⟨?_, new ++ [⟨v, (allocList vs m).1⟩], ?_, ?_⟩
    · refine .cons (nd := ⟨v, (allocList vs m).1⟩) (by simp [allocList, alloc]) ?_
      exact h1.append [⟨v, (allocList vs m).1⟩] (allocList vs m).2.frames
    · simp [allocList, alloc, h2]
    · intro q hq
      simp only [allocList, alloc, Option.mem_def, Option.some.injEq] at hq
      subst hq
      rw [h2]
      simp

/-- A chain of new nodes does not contain an old one. -/
theorem holds_setNext {m : Mem} {k p : Nat} {q : Option Nat} {a : Option Nat} {vs : List Val} (hp : p < k)
    (hnew : ∀ i nd j, k ≤ i → m.nodes[i]? = some nd → nd.next = some j → k ≤ j) (ha : ∀ i ∈ a, k ≤ i) (h : Holds m a vs) : Holds (setNext m p q) a vs := by
  induction h with
  | nil => exact .nil
  | cons hi _ ih =>
    rename_i i nd vs _
    have hk : k ≤ i := ha i rfl
    refine .cons (by rw [setNext, List.getElem?_modify_ne _ _ (by omega)]; exact hi) (ih fun j hj => hnew i nd j hk hi hj)

theorem allocList_next (vs : List Val) (m : Mem) : ∀ i nd j, m.nodes.length ≤ i → (allocList vs m).2.nodes[i]? = some nd → nd.next = some j → m.nodes.length ≤ j := by
  induction vs with
  | nil =>
    intro i nd j hi h
    have := (List.getElem?_eq_some_iff.1 h).1
    simp only [allocList] at this
    omega
  | cons v vs ih =>
    intro i nd j hi h hj
    obtain ⟨_, new, h2, h3⟩ := holds_allocList vs m
    simp only [allocList, alloc] at h
    by_cases hlt : i < (allocList vs m).2.nodes.length
    · rw [List.getElem?_append_left hlt] at h
      exact ih i nd j hi h hj
    · rw [List.getElem?_append_right (by omega)] at h
      obtain ⟨hlt', rfl⟩ := List.getElem?_eq_some_iff.1 h
      have : i - (allocList vs m).2.nodes.length = 0 := by simp at hlt'; omega
      simp only [this, List.getElem_cons_zero] at hj
      exact h3 j hj

/-! ## C120 -/

/-- C120: evaluating an expression changes no node of the program text whose datum is not a builtin object, and never a datum.  So an expression read from a
file, which contains no such objects, is the same after any number of evaluations. -/
theorem c120_unchanged_partial (F : Builtins) (hF : Gentle F) (n env : Nat) (v : Val) (m m' : Mem) (o : Out) (h : eval F n env v m = some (o, m'))
    (p : Nat) (nd : Node) (hp : m.nodes[p]? = some nd) : (¬ nd.data.isFunc → m'.nodes[p]? = some nd) ∧ m'.nodes[p]?.map (·.data) = some nd.data := by
  obtain ⟨nd', h1, h2, h3⟩ := (kept_all F hF n).1 env v m o m' h p nd hp
  refine ⟨fun hn => by rw [h1, h3 hn], by rw [h1]; simp [h2]⟩

/-- C120 is FALSE for an expression whose first element is a builtin object (not a symbol): after the evaluation it is the list of the builtin and the *values*
of its arguments. -/
theorem c120_overwritten (F : Builtins) (hF : Gentle F) (n env p : Nat) (nd : Node) (f : String) (vs : List Val) (m m1 m' : Mem) (v : Val)
    (hp : m.nodes[p]? = some nd) (hd : nd.data = .func f) (ha : evalArgs F n env nd.next m = some (some vs, m1))
    (h : eval F (n + 1) env (.list p) m = some (.ok v, m')) : Holds m' (some p) (.func f :: vs) := by
  simp only [eval, hp, hd, ha] at h
  split at h
  · rename_i w m2 hf
    cases h
    obtain ⟨new, fr, rfl⟩ := hF _ _ _ _ _ hf
    apply Holds.append
    obtain ⟨nd1, h1, d1, _⟩ := (kept_all F hF n).2.1 _ _ _ _ _ ha p nd hp
    obtain ⟨hh, new', hm, hq⟩ := holds_allocList vs m1
    have hlt : p < m1.nodes.length := (List.getElem?_eq_some_iff.1 h1).1
    have hp2 : (allocList vs m1).2.nodes[p]? = some nd1 := by rw [hm]; simp only; rw [List.getElem?_append_left hlt]; exact h1
    have := Holds.cons (m := setNext (allocList vs m1).2 p (allocList vs m1).1) (p := p) (nd := { nd1 with next := (allocList vs m1).1 }) (vs := vs)
      (by simp [setNext, hp2]) (holds_setNext hlt (allocList_next vs m1) hq hh)
    rw [← hd, ← d1]
    exact this
  · cases h

/-! Non-vacuity and the counterexample: `(define e (list car ''(1 2)))`, then `(eval e)` twice. -/

/-- `car` alone. -/
def carOnly : Builtins
  | "car", [.list p], m => m.nodes[p]?.map fun nd => (nd.data, m)
  | _, _, _ => none

theorem carOnly_gentle : Gentle carOnly := by
  intro f vs m v m' h
  unfold carOnly at h
  split at h
  · rename_i _ p
    cases hp : m.nodes[p]? with
    | none => rw [hp] at h; cases h
    | some nd => rw [hp] at h; cases h; exact ⟨[], m.frames, by simp⟩
  · cases h

/-- Nodes 0-1: `(1 2)`; 2-3: `(quote (1 2))`; 4-5: the builtin object `car` and `(quote (1 2))`; 6-7: the symbol `car` and the same. -/
def textMem : Mem :=
  ⟨[⟨.num 1, some 1⟩, ⟨.num 2, none⟩, ⟨.sym "quote", some 3⟩, ⟨.list 0, none⟩, ⟨.func "car", some 5⟩, ⟨.list 2, none⟩, ⟨.sym "car", some 7⟩, ⟨.list 2, none⟩],
   [([("car", .func "car")], none)]⟩

/-- C120: `(car '(1 2))` with the symbol `car` is 1 each time; with the builtin object in its place it is 1 the first time and an error the second time. -/
theorem c120_counterexample :
    (∃ m, eval carOnly 9 0 (.list 6) textMem = some (.ok (.num 1), m) ∧ ∃ m', eval carOnly 9 0 (.list 6) m = some (.ok (.num 1), m')) ∧
    (∃ m, eval carOnly 9 0 (.list 4) textMem = some (.ok (.num 1), m) ∧ ∃ m', eval carOnly 9 0 (.list 4) m = some (.err, m')) :=
  ⟨⟨_, rfl, _, rfl⟩, _, rfl, _, rfl⟩

/-- A body that builds and calls a procedure: `((lambda (x) (car x)) '(1 2))`, in memory. -/
def lambdaMem : Mem :=
  ⟨textMem.nodes ++ [⟨.sym "x", none⟩, ⟨.sym "car", some 10⟩, ⟨.sym "x", none⟩, ⟨.sym "lambda", some 12⟩, ⟨.list 8, some 13⟩, ⟨.list 9, none⟩,
    ⟨.list 11, some 15⟩, ⟨.list 2, none⟩], textMem.frames⟩

example : ∃ m', eval carOnly 9 0 (.list 14) lambdaMem = some (.ok (.num 1), m') ∧ m'.nodes.take 16 = lambdaMem.nodes := by
  refine ⟨_, rfl, by decide⟩

end Pscm.Code
