import Verif.LastErr
/-!
# What an embedding call ends with, and what the host should read afterwards (for C133)
-/
namespace Pscm
open Pscm.Ev
variable {σ : Type} {P : Prims σ}

/-- The answer that goes with the result of an evaluation, and the errors (none or one) it ended with. -/
inductive Ends : ApiRes → Answer → List (Name × V) → Prop
  | value {v} : Ends (.value v) (.value v) []
  | null : Ends .null .null []
  | failed {k a} : Ends (.failed k a) .null [(k, a)]

/-- A file: the expressions are evaluated in turn, each may fail; the answer is that of the last. -/
inductive EachEnds (P : Prims σ) : List V → Answer → St σ → Answer → List (Name × V) → St σ → Prop
  | nil {a s} : EachEnds P [] a s a [] s
  | cons {x xs a0 a1 a s s1 s' r es es'} (n : Nat) : pscmEval P n x s = some (.ok r, s1) → Ends r a1 es → EachEnds P xs a1 s1 a es' s' →
      EachEnds P (x :: xs) a0 s a (es ++ es') s'

/-- A call of the interface in state `s` gives `a`, leaves `s'`; `es` are the errors (key and arguments) that its evaluations ended with. -/
inductive CallEnds (P : Prims σ) : Ask → St σ → Answer → List (Name × V) → St σ → Prop
  | eval {x s r s' a es} (n : Nat) : pscmEval P n x s = some (.ok r, s') → Ends r a es → CallEnds P (.eval x) s a es s'
  | parse {t s r s' a es} : pscmParse t s = some (.ok r, s') → Ends r a es → CallEnds P (.parse t) s a es s'
  | evalString {t s r s' a es} (n : Nat) : pscmEvalString P n t s = some (.ok r, s') → Ends r a es → CallEnds P (.evalString t) s a es s'
  | noFile {path s} : P.file path s.ext = .missing → CallEnds P (.evalFile path) s .null [] s
  | file {path s xs a es s'} : P.file path s.ext = .exprs xs → EachEnds P xs .null s a es s' → CallEnds P (.evalFile path) s a es s'

/-- A host program that has made any number of calls, none of them before; `es` are all the errors so far. -/
inductive Used (P : Prims σ) : St σ → Host → List (Name × V) → Prop
  | start {s} : Used P s .fresh []
  | call {s h es q n a h' s' es'} : Used P s h es → hostAsk P n h q s = some (.ok (a, h'), s') → CallEnds P q s a es' s' → Used P s' h' (es ++ es')

/-- A text argument. -/
def textArg : V → Option String
  | .str s => some s
  | _ => none

/-- The message of an error: the first of its first two arguments that is a text. -/
def messageOf (args : List V) : Text :=
  match (args.take 2).findSome? textArg with
  | some m => .text (cText m)
  | none => .none

end Pscm
