import Verif.EvApi
import Verif.Reader
/-!
# Running program texts

The reader (`Verif.Reader`) works on bytes and makes trees `D`; the evaluator (`Verif.EvStep`) works on values `V`.  Here they are put together:
`pscm FILE` (src/main.cc) and `pscm_eval_string` (src/c/pscm_api.cc) on the bytes of a text.
-/
namespace Pscm.Scr
open Pscm.Ev (V St EM Out Prims ApiRes ReadRes pscmEval pscmEvalString)
open Pscm.Rd (D Bytes FloIO parse parseAll print)

/-- Bytes as a text: a name or string of the evaluator has one character for each byte. -/
def chars (b : Bytes) : String := String.ofList (b.map fun c => Char.ofNat c.toNat)

/-- What the reader built (src/c/parse.cc), as a value.  Not modelled (`none`): ratios, and a dot in front of a list, `(a . (b))`, for which the reader makes
another chain of nodes than for `(a b)`. -/
def ofD : D → Option V
  | .nil => some .nil
  | .bool b => some (.bool b)
  | .num n => some (.num n)
  | .flo b => some (.flo b)
  | .ratio _ _ => none
  | .chr c => some (.chr c)
  | .str s => some (.str (chars s))
  | .sym s => some (.sym (chars s))
  | .pair a d =>
    match ofD a, ofD d with
    | some x, some y => some (.pair x y)
    | _, _ => none
  | .dot x =>
    match ofD x with
    | some .nil => none
    | some (.pair _ _) => none
    | r => r
  | .vec e => (ofD e).map .vec

/-- The text of a name or string, as bytes. -/
def bytes (s : String) : Option Bytes := if s.toList.all fun c => c.toNat < 256 then some (s.toList.map fun c => c.toNat.toUInt8) else none

/-- The rest of a list, as a chain of nodes: a last node that is not a list is dotted. -/
def asTail : D → D
  | .nil => .nil
  | .pair a d => .pair a d
  | x => .dot x

/-- A value as the printer (src/c/print.cc) walks it; `none` for values with procedures and other objects in them. -/
def toD : V → Option D
  | .nil => some .nil
  | .bool b => some (.bool b)
  | .num n => some (.num n)
  | .flo b => some (.flo b)
  | .chr c => some (.chr c)
  | .str s => (bytes s).map .str
  | .sym s => (bytes s).map .sym
  | .pair a d =>
    match toD a, toD d with
    | some x, some y => some (.pair x (asTail y))
    | _, _ => none
  | .vec e => (toD e).map .vec
  | _ => none

/-- `print_ast(val, true)` (src/c/print.cc:35-290); the text of values with procedures and other objects in them, `obj`, is left open. -/
def valueText (F : FloIO) (obj : V → Bytes) (v : V) : Bytes :=
  match toD v with
  | some d => print F true d
  | none => obj v

variable {σ : Type}

/-- What `my_eval` prints for the answer of `pscm_eval` (src/main.cc:15-27): nothing for the unspecified value and for the null pointer. -/
def lineOf (F : FloIO) (obj : V → Bytes) : ApiRes → List Bytes
  | .value .none => []
  | .value v => [valueText F obj v]
  | .null => []
  | .failed _ _ => []

/-- The loop of `do_eval` (src/main.cc:51-55): the lines printed.  What was printed before an evaluation that does not return is left out. -/
def scriptLoop (P : Prims σ) (F : FloIO) (obj : V → Bytes) (n : Nat) : List V → EM σ (List Bytes)
  | [] => pure []
  | x :: xs => do
    let r ← pscmEval P n x
    let ls ← scriptLoop P F obj n xs
    pure (lineOf F obj r ++ ls)

/-- The expressions of a file (src/c/parse.cc:1413-1468), as values. -/
def exprsOf : D → Option (List V)
  | .pair d ds =>
    match ofD d, exprsOf ds with
    | some x, some xs => some (x :: xs)
    | _, _ => none
  | _ => some []

/-- `do_eval` (src/main.cc:42-57) after `pscm_init`, on a file with this content (`none`: it cannot be read): the lines printed and the exit status.  A syntax error is
not caught and ends the process with status 1 (`scm_uncaught_throw`). -/
def runScript (P : Prims σ) (F : FloIO) (obj : V → Bytes) (n : Nat) : Option Bytes → EM σ (List Bytes × Int)
  | none => pure ([], 1)
  | some text =>
    match parseAll F (text.length + 1) text with
    | .ok ds _ =>
      match exprsOf ds with
      | none => EM.stop .unmod
      | some [] => pure ([], 1)
      | some (x :: xs) => do
        let ls ← scriptLoop P F obj n (x :: xs)
        pure (ls, 0)
    | .err => pure ([], 1)
    | .null _ => pure ([], 1)
    | _ => EM.stop .ub

/-- What `parse` (src/c/parse.cc:1301-1365) makes of a text; `none`: not modelled. -/
def readText (F : FloIO) (text : Bytes) : Option ReadRes :=
  match parse F text with
  | .ok d _ => (ofD d).map .datum
  | .null _ => some .nothing
  | .err => some (.error "Parse error")
  | _ => some .overflow

/-- `pscm_eval_string` (src/c/pscm_api.cc:48-64) on the bytes of a text. -/
def evalText (P : Prims σ) (F : FloIO) (n : Nat) (text : Bytes) : EM σ ApiRes :=
  match readText F text with
  | none => EM.stop .unmod
  | some t => pscmEvalString P n t

/-- A host program that calls `pscm_eval_string` on texts, one after the other: the answers. -/
def session (P : Prims σ) (F : FloIO) (n : Nat) : List Bytes → EM σ (List ApiRes)
  | [] => pure []
  | t :: ts => do
    let r ← evalText P F n t
    let rs ← session P F n ts
    pure (r :: rs)

end Pscm.Scr
