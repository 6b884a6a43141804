import Verif.HashIterLemmas

/-! C132: folding a hash table, and mapping over a module, while the procedure changes the table. -/
namespace Pscm.Itr
variable {K V A : Type} [DecidableEq K]

/-- C132: for every table a program can make and every procedure, whatever it inserts, changes and removes: the fold ends (unless the procedure leaves it); the calls are made one after the other, each
with the result of the one before, and the last result is the result; no key is passed twice; and every key bound at the start that no call removes is passed exactly once, with the value it
has at the time of the call. -/
theorem c132_fold (hash : K → Nat) (proc : Proc K V A) (init : A) (cap : Nat) (hc : 0 < cap) (hist : List (Op K V)) :
    ∃ t, run hash (make cap) hist = some t ∧ ∃ s : St K V A, (s.log.map (·.key)).Nodup ∧
      ((fold hash proc init t = .done s ∧ Runs hash proc t init s.log s.tab s.acc ∧
        ∀ k v, ref hash t k = some (some v) → ¬ Removed proc s.log k → ∃ w ∈ s.log, w.key = k ∧ ref hash w.tab k = some (some w.val)) ∨
       (fold hash proc init t = .left s ∧ Leaves hash proc t init s.log s.tab)) := by
  obtain ⟨t, ht, hw, _⟩ := run_ok (hash := hash) hist (make_wf (V := V) hash cap hc)
  obtain ⟨s, hn, hf, h⟩ := fold_spec hash proc init t hw
  refine ⟨t, ht, s, hn, ?_⟩
  rcases h with ⟨h1, h2, h3⟩ | h
  · left
    refine ⟨h1, h2, ?_⟩
    intro k v hr hrm
    obtain ⟨w, hwl, rfl⟩ := h3 k v hr hrm
    refine ⟨w, hwl, rfl, ?_⟩
    obtain ⟨pre, post, he⟩ := List.append_of_mem hwl
    rcases hf pre post w he with h | ⟨u, hu, ho⟩
    · exact h
    · exact absurd ⟨u, by rw [he]; exact List.mem_append_left _ hu, ho⟩ hrm
  · exact Or.inr h

/-- C132, for procedures that remove at most the key they are called with: every call is made with a key that is bound at that time, and with its value.  (What is missing: all procedures; see
`c132_stale_counterexample`.) -/
theorem c132_current_partial (hash : K → Nat) (proc : Proc K V A) (init : A) (cap : Nat) (hc : 0 < cap) (hist : List (Op K V)) (hown : ∀ k v a t k', Op.remove k' ∈ (proc k v a t).1 → k' = k) :
    ∃ t, run hash (make cap) hist = some t ∧ ∃ s : St K V A, (fold hash proc init t = .done s ∨ fold hash proc init t = .left s) ∧ ∀ w ∈ s.log, ref hash w.tab w.key = some (some w.val) := by
  obtain ⟨t, ht, hw, _⟩ := run_ok (hash := hash) hist (make_wf (V := V) hash cap hc)
  obtain ⟨s, hn, hf, h⟩ := fold_spec hash proc init t hw
  refine ⟨t, ht, s, ?_, ?_⟩
  · rcases h with ⟨h1, _⟩ | ⟨h1, _⟩
    · exact Or.inl h1
    · exact Or.inr h1
  · intro w hwl
    obtain ⟨pre, post, he⟩ := List.append_of_mem hwl
    rcases hf pre post w he with h | ⟨u, hu, ho⟩
    · exact h
    · have hk := hown _ _ _ _ _ ho
      rw [he, List.map_append, List.nodup_append] at hn
      exact absurd hk.symm (hn.2.2 u.key (List.mem_map.mpr ⟨u, hu, rfl⟩) w.key (by simp))

theorem runs_static {hash : K → Nat} {proc : Proc K V A} (hst : ∀ k v a t, (proc k v a t).1 = []) {t t' : Tbl K V} {a a' : A} {log : List (Visit K V A)} (h : Runs hash proc t a log t' a') :
    t' = t ∧ ∀ w ∈ log, w.tab = t := by
  induction h with
  | nil => exact ⟨rfl, by simp⟩
  | cons h1 _ _ ih =>
    rw [hst] at h1
    simp only [run, Option.some.injEq] at h1
    subst h1
    refine ⟨ih.1, ?_⟩
    intro w hw
    rcases List.mem_cons.mp hw with rfl | hw
    · rfl
    · exact ih.2 w hw

/-- C132: a procedure that changes nothing (and does not leave) is called once with every key that is bound and its value, and with nothing else; the table is as before. -/
theorem c132_static (hash : K → Nat) (proc : Proc K V A) (init : A) (cap : Nat) (hc : 0 < cap) (hist : List (Op K V)) (hst : ∀ k v a t, (proc k v a t).1 = []) (hret : ∀ k v a t, (proc k v a t).2 ≠ none) :
    ∃ t, run hash (make cap) hist = some t ∧ ∃ s : St K V A, fold hash proc init t = .done s ∧ s.tab = t ∧ (s.log.map (·.key)).Nodup ∧
      ∀ k v, (∃ w ∈ s.log, w.key = k ∧ w.val = v) ↔ ref hash t k = some (some v) := by
  obtain ⟨t, ht, hw, _⟩ := run_ok (hash := hash) hist (make_wf (V := V) hash cap hc)
  obtain ⟨s, hn, hf, h⟩ := fold_spec hash proc init t hw
  rcases h with ⟨h1, h2, h3⟩ | ⟨h1, pre, k, v, t1, a1, _, _, h4, _⟩
  · have hs := runs_static hst h2
    have hval : ∀ w ∈ s.log, ref hash t w.key = some (some w.val) := by
      intro w hwl
      obtain ⟨pre, post, he⟩ := List.append_of_mem hwl
      rcases hf pre post w he with h | ⟨u, hu, ho⟩
      · rw [hs.2 w hwl] at h; exact h
      · rw [hst] at ho; cases ho
    refine ⟨t, ht, s, h1, hs.1, hn, ?_⟩
    intro k v
    constructor
    · rintro ⟨w, hwl, rfl, rfl⟩
      exact hval w hwl
    · intro hr
      obtain ⟨w, hwl, hk⟩ := h3 k v hr (by rintro ⟨u, hu, ho⟩; rw [hst] at ho; cases ho)
      refine ⟨w, hwl, hk, ?_⟩
      have := hval w hwl
      rw [hk, hr] at this
      simpa using this.symm
  · exact absurd h4 (hret _ _ _ _)

theorem runs_results {R S : Type} {hash : K → Nat} {proc : K → V → S → Tbl K V → List (Op K V) × Option (R × S)} {t t' : Tbl K V} {a a' : List R × S} {log : List (Visit K V (List R × S))}
    (h : Runs hash (fun k v a tab => ((proc k v a.2 tab).1, (proc k v a.2 tab).2.map (fun r => (a.1 ++ [r.1], r.2)))) t a log t' a') :
    a'.1.map some = a.1.map some ++ log.map (fun w => (proc w.key w.val w.acc.2 w.tab).2.map (·.1)) := by
  induction h with
  | nil => simp
  | @cons k v t t1 t' a a1 a' log h1 h2 _ ih =>
    cases hr : (proc k v a.2 t).2 with
    | none => rw [hr] at h2; simp at h2
    | some r =>
      rw [hr] at h2
      simp only [Option.map_some, Option.some.injEq] at h2
      rw [ih, ← h2]
      simp [hr]

/-- C132: module-map returns the results of its calls in order; no name is passed twice, and every name bound in the module when it starts (names cannot be unbound: define is the only change) is
passed exactly once, with its value at the time of the call. -/
theorem c132_module_map {R S : Type} (hash : K → Nat) (proc : K → V → S → Tbl K V → List (Op K V) × Option (R × S)) (st : S) (cap : Nat) (hc : 0 < cap) (hist : List (Op K V))
    (hdef : ∀ k v a t k', Op.remove k' ∉ (proc k v a t).1) :
    ∃ t, run hash (make cap) hist = some t ∧ ∃ s, (s.log.map (·.key)).Nodup ∧ (∀ w ∈ s.log, ref hash w.tab w.key = some (some w.val)) ∧
      ((moduleMap hash proc st t = .done s ∧ s.acc.1.map some = s.log.map (fun w => (proc w.key w.val w.acc.2 w.tab).2.map (·.1)) ∧
        ∀ k v, ref hash t k = some (some v) → ∃ w ∈ s.log, w.key = k) ∨
       (moduleMap hash proc st t = .left s ∧ ∃ pre w, s.log = pre ++ [w] ∧ (proc w.key w.val w.acc.2 w.tab).2 = none)) := by
  obtain ⟨t, ht, hw, _⟩ := run_ok (hash := hash) hist (make_wf (V := V) hash cap hc)
  obtain ⟨s, hn, hf, h⟩ := fold_spec hash (fun k v a tab => ((proc k v a.2 tab).1, (proc k v a.2 tab).2.map (fun r => (a.1 ++ [r.1], r.2)))) ([], st) t hw
  refine ⟨t, ht, s, hn, ?_, ?_⟩
  · intro w hwl
    obtain ⟨pre, post, he⟩ := List.append_of_mem hwl
    rcases hf pre post w he with h | ⟨u, hu, ho⟩
    · exact h
    · exact absurd ho (hdef _ _ _ _ _)
  · rcases h with ⟨h1, h2, h3⟩ | ⟨h1, pre, k, v, t1, a1, h2, h3, h4, h5⟩
    · left
      refine ⟨h1, by simpa using runs_results h2, ?_⟩
      intro k v hr
      exact h3 k v hr (by rintro ⟨u, hu, ho⟩; exact hdef _ _ _ _ _ ho)
    · right
      exact ⟨h1, pre, _, h2, by simpa using h4⟩

/-- Keys that all go to the same of two buckets: the tables of the examples. -/
def even2 : List (Op Nat Nat) := [.set 0 10, .set 2 12, .set 4 14, .set 1 11]

/-- A procedure that removes its own key, changes another and inserts a new one, and adds the values. -/
def demoProc : Proc Nat Nat Nat := fun k v a _ => ([.remove k, .set 0 100, .set (k + 11) 1], some (a + v))

/-- The calls of a fold. -/
def calls : Out Nat Nat A → Option (List (Nat × Nat) × A)
  | .done s => some (s.log.map (fun w => (w.key, w.val)), s.acc)
  | _ => none

example : ((run id (make 2) even2).map (fun t => calls (fold id demoProc 0 t))) = some (some ([(4, 14), (2, 12), (0, 100), (11, 1), (13, 1), (15, 1), (1, 11)], 140)) := by decide +kernel

/-- `demoProc` removes at most its own key; and the hypotheses of `c132_static` and `c132_module_map` hold of a procedure that adds the values, or defines a name. -/
example : (∀ k v a t k', Op.remove k' ∈ (demoProc k v a t).1 → k' = k) ∧ (∀ (k v a : Nat) (t : Tbl Nat Nat), ((fun _ v a _ => ([], some (a + v)) : Proc Nat Nat Nat) k v a t).2 ≠ none) ∧
    (∀ (k v : Nat) (a : Unit) (t : Tbl Nat Nat) (k' : Nat), Op.remove k' ∉ ((fun k v _ _ => ([.set (k + 1) v], some (v, ()))) k v a t : List (Op Nat Nat) × Option (Nat × Unit)).1) := by
  refine ⟨?_, by simp, by simp⟩
  intro k v a t k' h
  simpa [demoProc] using h

/-- C132 is FALSE for procedures that remove other keys: an entry that has been removed, whose key is not bound any more, is passed all the same. -/
theorem c132_stale_counterexample : ∃ (t : Tbl Nat Nat) (s : St Nat Nat Nat), run id (make 2) even2 = some t ∧
    fold id (fun k _ a _ => ([.remove k, .remove (k - 2)], some (a + 1))) 0 t = .done s ∧ ∃ w ∈ s.log, w.key = 2 ∧ w.val = 12 ∧ ref id w.tab 2 = some none := by
  refine ⟨_, _, rfl, rfl, ?_⟩
  refine ⟨_, List.mem_cons_of_mem _ List.mem_cons_self, rfl, rfl, rfl⟩

end Pscm.Itr
