import Verif.HashIter

/-! What C132 says of the calls of a fold. -/
namespace Pscm.Itr
variable {K V A : Type} [DecidableEq K]

/-- The calls of a log form a chain: each is made with the table and the result the one before it left. -/
inductive Runs (hash : K → Nat) (proc : Proc K V A) : Tbl K V → A → List (Visit K V A) → Tbl K V → A → Prop
  | nil {t : Tbl K V} {a : A} : Runs hash proc t a [] t a
  | cons {k : K} {v : V} {t t1 t' : Tbl K V} {a a1 a' : A} {log : List (Visit K V A)} : run hash t (proc k v a t).1 = some t1 → (proc k v a t).2 = some a1 → Runs hash proc t1 a1 log t' a' →
      Runs hash proc t a (⟨k, v, a, t⟩ :: log) t' a'

/-- The last call of the log left the fold. -/
def Leaves (hash : K → Nat) (proc : Proc K V A) (t : Tbl K V) (a : A) (log : List (Visit K V A)) (t' : Tbl K V) : Prop :=
  ∃ (pre : List (Visit K V A)) (k : K) (v : V) (t1 : Tbl K V) (a1 : A), log = pre ++ [⟨k, v, a1, t1⟩] ∧ Runs hash proc t a pre t1 a1 ∧ (proc k v a1 t1).2 = none ∧ run hash t1 (proc k v a1 t1).1 = some t'

/-- The key was removed by one of the calls. -/
def Removed (proc : Proc K V A) (log : List (Visit K V A)) (k : K) : Prop := ∃ w ∈ log, Op.remove k ∈ (proc w.key w.val w.acc w.tab).1

end Pscm.Itr
