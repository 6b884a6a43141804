import Verif.ConsoleSpec
import Verif.ReplProps
import Verif.RefTop
/-!
# Specification for sessions with the read-eval-print loop

`Line`, `Complete` and `text` are those of C111 (`ReplProps`); `Runs` is the reference semantics of programs that print (`ConsoleSpec`).
-/
namespace Pscm.Scr.Spec
open Pscm.Rd (D Bytes FloIO asc print)
open Pscm.Rd.Spec (Blank)
open Pscm.Ref (Form Event)

/-- The lines hold the text of the form, with the datum `d`, and are complete with the last line, not before. -/
structure TypedForm (F : FloIO) (ls : List Bytes) (d : D) (f : Form) : Prop where
  some : ls ≠ []
  lines : ∀ l ∈ ls, Repl.Line l
  whole : Repl.Complete (Repl.text ls)
  first : ∀ p q, ls = p ++ q → p ≠ [] → q ≠ [] → ¬ Repl.Complete (Repl.text p)
  reads : ∃ w t e, Repl.text ls = w ++ (t ++ e) ∧ Blank w ∧ Written F .one t d ∧ NotFirst 44 t ∧ Blank e
  datum : ofD d = .some f.toV

/-- Forms typed one after the other. -/
inductive TypedForms (F : FloIO) : List (List Bytes × D) → List Form → Prop
  | nil : TypedForms F [] []
  | cons {ls d f is fs} : TypedForm F ls d f → TypedForms F is fs → TypedForms F ((ls, d) :: is) (f :: fs)

/-- All that is typed. -/
def input (is : List (List Bytes × D)) : Bytes := is.flatMap fun i => Repl.text i.1

/-- The prompts for `k` lines. -/
def prompts (k : Nat) : Bytes := asc "pscm> " ++ (List.replicate (k - 1) (asc "  ...> ")).flatten

/-- What stands behind the arrow: the value, as `display` prints it; `none` for the unspecified value; `<null>` for an error. -/
inductive Reply : Option Ref.Val → Bytes → Prop
  | error : Reply none (asc "<null>")
  | unspecified : Reply (some .unspecified) (asc "none")
  | value {v t} : v ≠ .unspecified → (Displayable v → Disp .datum v t) → Reply (some v) t

/-- What is seen on the standard output: for each form the prompts, the expression, what its evaluation prints, and the value behind an arrow; at the end of the input
one more prompt and a line feed. -/
inductive Dialogue (F : FloIO) : List (List Bytes × D) → List (List Event × Option Ref.Val) → Bytes → Prop
  | bye : Dialogue F [] [] (asc "pscm> " ++ [10])
  | turn {ls d is es v l t r u} : ShownAll es t → Reply v r → Dialogue F is l u →
      Dialogue F ((ls, d) :: is) ((es, v) :: l) (prompts ls.length ++ (print F false d ++ [10]) ++ (t ++ asc " --> " ++ r ++ [10]) ++ u)

end Pscm.Scr.Spec
