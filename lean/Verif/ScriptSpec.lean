import Verif.RefStd
import Verif.StrSpec
import Verif.ReaderProps2
import Verif.Script
/-!
# Specification for programs as texts: external representations, texts of programs, the lines a script prints

`Val`, `Form` and `evalForm` are the reference semantics (`RefSem`); the grammar of data is `Written` (`ReaderProps2`).
-/
namespace Pscm.Scr.Spec
open Pscm.Rd (D Bytes FloIO asc)
open Pscm.Ref (Store Form evalForm standard)
open Pscm.Rd.Spec (Blank AllBlank Ends)

/-- A datum, or the rest of a list after its first element. -/
inductive Part | datum | rest
  deriving DecidableEq

/-- How a character stands in a written string: quotation mark, backslash, line feed, tab and carriage return are escaped with a letter, other control characters
and those above 126 with three octal digits. -/
inductive Escaped : Nat → Bytes → Prop
  | plain {c : UInt8} : 32 ≤ c → c < 127 → c ≠ 34 → c ≠ 92 → Escaped c.toNat [c]
  | mark : Escaped 34 (asc "\\\"")
  | slash : Escaped 92 (asc "\\\\")
  | newline : Escaped 10 (asc "\\n")
  | tab : Escaped 9 (asc "\\t")
  | return : Escaped 13 (asc "\\r")
  | octal {n a b c : Nat} : (n < 32 ∨ 127 ≤ n) → n ≠ 10 → n ≠ 9 → n ≠ 13 → n = 64 * a + 8 * b + c → a < 4 → b < 8 → c < 8 →
      Escaped n [92, (48 + a).toUInt8, (48 + b).toUInt8, (48 + c).toUInt8]

/-- The text between the quotation marks of a string. -/
inductive EscapedAll : List Char → Bytes → Prop
  | nil : EscapedAll [] []
  | cons {c cs t ts} : Escaped c.toNat t → EscapedAll cs ts → EscapedAll (c :: cs) (t ++ ts)

/-- External representations of values made of data: lists with a space between the elements. -/
inductive Ext : Part → Ref.Val → Bytes → Prop
  | nil : Ext .datum .nil (asc "()")
  | true : Ext .datum (.bool true) (asc "#t")
  | false : Ext .datum (.bool false) (asc "#f")
  | num {n t} : Pscm.Spec.IsNumeral 10 n t → Ext .datum (.num n) t
  | space : Ext .datum (.chr 32) (asc "#\\space")
  | newline : Ext .datum (.chr 10) (asc "#\\newline")
  /-- the name of the tab in this interpreter -/
  | tab : Ext .datum (.chr 9) (asc "#\\ht")
  | chr {c} : c ∉ [32, 10, 9] → Ext .datum (.chr c) [35, 92, c]
  | str {s t} : EscapedAll s.toList t → Ext .datum (.str s) (34 :: (t ++ [34]))
  | sym {x t} : t.map UInt8.toNat = x.toList.map Char.toNat → Ext .datum (.sym x) t
  /-- `'x` for `(quote x)` -/
  | quote {v t} : Ext .datum v t → Ext .datum (.pair (.sym "quote") (.pair v .nil)) (39 :: t)
  | list {a d s t} : Ext .datum a s → Ext .rest d t → Ext .datum (.pair a d) (40 :: (s ++ t ++ [41]))
  | last : Ext .rest .nil []
  | next {a d s t} : Ext .datum a s → Ext .rest d t → Ext .rest (.pair a d) (32 :: (s ++ t))
  | dotted {v t} : v ≠ .nil → (∀ a d, v ≠ .pair a d) → Ext .datum v t → Ext .rest v (asc " . " ++ t)

/-- The heads that are written specially. -/
def special (v : Ref.Val) : Prop := v = .sym "quote" ∨ v = .sym "quasiquote" ∨ v = .sym "unquote" ∨ v = .sym "unquote-splicing"

/-- Values made of data, with characters of one byte; the names of symbols have no NUL and do not begin with a colon, and a list that begins with `quote` etc. has one
more element. -/
def Printable : Part → Ref.Val → Prop
  | _, .nil => True
  | _, .bool _ => True
  | _, .num _ => True
  | _, .chr _ => True
  | _, .str s => ∀ c ∈ s.toList, c.toNat < 256
  | _, .sym x => (∀ c ∈ x.toList, 0 < c.toNat ∧ c.toNat < 256) ∧ x.toList.head? ≠ some ':'
  | .datum, .pair a d => Printable .datum a ∧ Printable .rest d ∧ (special a → ∃ v, d = .pair v .nil)
  | .rest, .pair a d => Printable .datum a ∧ Printable .rest d
  | _, _ => False

/-- The texts of a program: the text of each form, with blanks before it and a delimiter after it; blanks at the end. -/
inductive ProgramText (F : FloIO) : Bytes → List Pscm.Ev.V → Prop
  | done {w} : AllBlank w → 0 ∉ w → ProgramText F w []
  | form {w t d v rest vs} : Blank w → Written F .one t d → NotFirst 44 t → ofD d = some v → Ends rest → ProgramText F rest vs →
      ProgramText F (w ++ (t ++ rest)) (v :: vs)

/-- The text of one form, with blanks around it. -/
def FormText (F : FloIO) (text : Bytes) (v : Pscm.Ev.V) : Prop :=
  ∃ w t e d, text = w ++ (t ++ e) ∧ Blank w ∧ Written F .one t d ∧ NotFirst 44 t ∧ ofD d = some v ∧ Blank e

/-- What comes of forms evaluated one after the other: a value, or an error (`none`).  After an error the next form is evaluated, with the effects performed before the
error. -/
inductive Values : Store → List Form → List (Option Ref.Val) → Store → Prop
  | nil {st} : Values st [] [] st
  | cons {st n f v st1 fs vs st2} : evalForm standard n st f = .val (v, st1) → Values st1 fs vs st2 → Values st (f :: fs) (some v :: vs) st2
  | error {st n f st1 fs vs st2} : evalForm standard n st f = .error (some st1) → Values st1 fs vs st2 → Values st (f :: fs) (none :: vs) st2

/-- One line for each value that is not the unspecified one: an external representation of it.  What is printed for a procedure is left open.  Nothing for an error. -/
inductive Lines : List (Option Ref.Val) → List Bytes → Prop
  | nil : Lines [] []
  | silent {vs ls} : Lines vs ls → Lines (some .unspecified :: vs) ls
  | error {vs ls} : Lines vs ls → Lines (none :: vs) ls
  | line {v vs t ls} : v ≠ .unspecified → (Printable .datum v → Ext .datum v t) → Lines vs ls → Lines (some v :: vs) (t :: ls)

end Pscm.Scr.Spec
