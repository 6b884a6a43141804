import Verif.Reader
/-! # Specification for the reader and the printer: blanks, readable data, sameness of data -/
namespace Pscm.Rd.Spec

/-- White space and line comments. -/
inductive Blank : Bytes → Prop
  | nil : Blank []
  | space {c w} : c ∈ [32, 9, 10, 11, 12, 13] → Blank w → Blank (c :: w)
  | comment {t w} : (∀ c ∈ t, c ≠ 10 ∧ c ≠ 0) → Blank w → Blank (59 :: (t ++ 10 :: w))

/-- Nothing but white space and comments, the last of which may lack its newline. -/
def AllBlank (s : Bytes) : Prop := ∃ w e, s = w ++ e ∧ Blank w ∧ (e = [] ∨ ∃ t, e = 59 :: t ∧ 10 ∉ t)

/-- A character that cannot continue a token: end of text, white space, parenthesis, comment. -/
def Ends (rest : Bytes) : Prop := rest = [] ∨ ∃ c t, rest = c :: t ∧ c ∈ [0, 32, 9, 10, 11, 12, 13, 40, 41, 59]

def digit (c : UInt8) : Prop := 48 ≤ c ∧ c ≤ 57
def letter (c : UInt8) : Prop := (65 ≤ c ∧ c ≤ 90) ∨ (97 ≤ c ∧ c ≤ 122)
/-- The characters of symbols. -/
def symChar (c : UInt8) : Prop := letter c ∨ digit c ∨ c ∈ asc "!$%&*+-./:<=>?@^_~|"

/-- Symbols with a readable name: only symbol characters, not starting like a number (except `1+` and `1-`) or a keyword, and neither the
dot nor starting with `.|`. -/
structure SymOk (s : Bytes) : Prop where
  nonempty : s ≠ []
  chars : ∀ c ∈ s, symChar c
  keyword : ∀ t, s ≠ 58 :: t
  number : ∀ c t, s = c :: t → digit c → s = asc "1+" ∨ s = asc "1-"
  signed : ∀ c d t, s = c :: d :: t → c ∈ [43, 45] → ¬ digit d
  dot : s ≠ [46]
  dotBar : ∀ t, s ≠ 46 :: 124 :: t

/-- Bytes that survive in a written string. -/
def StrByte (c : UInt8) : Prop := (32 ≤ c ∧ c < 127) ∨ c ∈ [9, 10, 13]

/-- Where a datum stands: on its own, as the rest of a list, as the elements of a vector. -/
inductive Place | datum | tail | elems

/-- The heads that are written specially. -/
def SpecialHead (a : D) : Prop :=
  a = .sym (asc "quote") ∨ a = .sym (asc "quasiquote") ∨ a = .sym (asc "unquote") ∨ a = .sym (asc "unquote-splicing")

/-- Data for which writing and reading back is claimed: no floats and ratios, no NUL character, integers above -2^63, strings of
printable ASCII, readable symbols; `quote` and friends at the head of a list have exactly one operand. -/
def Readable : Place → D → Prop
  | .datum, .nil => True
  | .datum, .bool _ => True
  | .datum, .num n => -(2:Int)^63 < n ∧ n < (2:Int)^63
  | .datum, .chr c => c ≠ 0
  | .datum, .str s => ∀ c ∈ s, StrByte c
  | .datum, .sym s => SymOk s
  | .datum, .pair a d => Readable .datum a ∧ Readable .tail d ∧ (SpecialHead a → ∃ x, d = .pair x .nil)
  | .datum, .vec e => Readable .elems e
  | .datum, _ => False
  | .tail, .nil => True
  | .tail, .pair a d => Readable .datum a ∧ Readable .tail d
  | .tail, .dot x => Readable .datum x
  | .tail, _ => False
  | .elems, .nil => True
  | .elems, .pair a d => Readable .datum a ∧ Readable .elems d
  | .elems, _ => False

/-- A datum with `(a . (b))` written as `(a b)`: the structure seen by `car` and `cdr`. -/
def norm : D → D
  | .pair a d => .pair (norm a) (norm d)
  | .dot x => match norm x with
    | .nil => .nil
    | .pair a d => .pair a d
    | y => .dot y
  | .vec e => .vec (norm e)
  | x => x

/-- No dot in front of a list: the form in which `cons` and `list` build data. -/
def Plain : D → Prop
  | .pair a d => Plain a ∧ Plain d
  | .dot x => Plain x ∧ (∀ a d, x ≠ .pair a d)
  | .vec e => Plain e
  | _ => True

end Pscm.Rd.Spec
