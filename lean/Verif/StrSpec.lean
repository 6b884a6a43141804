import Verif.Heap
/-!
# Specification vocabulary for texts: numerals and byte order

Independent of the code being modelled.
-/
namespace Pscm
namespace Spec

/-- The glyphs `0`…`9`, `a`…`z`. -/
def glyphs : List UInt8 := "0123456789abcdefghijklmnopqrstuvwxyz".toUTF8.toList
/-- The glyphs `0`…`9`, `A`…`Z`. -/
def glyphsUp : List UInt8 := "0123456789ABCDEFGHIJKLMNOPQRSTUVWXYZ".toUTF8.toList

/-- The number denoted by a sequence of digits in base `r`, most significant first. -/
def posValue (r : Nat) (ds : List Nat) : Nat := ds.foldl (fun a d => a * r + d) 0

/-- `s` is the usual numeral of `n` in base `r`: an optional minus sign and the base-`r` digits of `|n|` in lower case, without leading
zeros. -/
def IsNumeral (r : Nat) (n : Int) (s : List UInt8) : Prop :=
  ∃ ds : List Nat, ds ≠ [] ∧ (∀ d ∈ ds, d < r) ∧ (ds.head? = some 0 → ds = [0]) ∧ posValue r ds = n.natAbs ∧
    s.map some = (if n < 0 then [some 45] else []) ++ ds.map (fun d => glyphs[d]?)

/-- `s` spells the digits `ds`, each glyph in either case. -/
def Spells (ds : List Nat) (s : List UInt8) : Prop :=
  ds.length = s.length ∧ ∀ (i d : Nat) (c : UInt8), ds[i]? = some d → s[i]? = some c →
    glyphs[d]? = some c ∨ glyphsUp[d]? = some c

/-- Bytewise lexicographic order. -/
def lexLt : List UInt8 → List UInt8 → Prop
  | [], [] => False
  | [], _ :: _ => True
  | _ :: _, [] => False
  | a :: as, b :: bs => a.toNat < b.toNat ∨ (a = b ∧ lexLt as bs)

/-- No NUL byte. -/
def NulFree (s : List UInt8) : Prop := ∀ c ∈ s, c ≠ 0

/-- 7-bit text. -/
def Ascii (s : List UInt8) : Prop := ∀ c ∈ s, c.toNat < 128

/-- ASCII upper case of one byte. -/
def up (c : UInt8) : UInt8 := if 97 ≤ c.toNat ∧ c.toNat ≤ 122 then (c.toNat - 32).toUInt8 else c

end Spec
end Pscm
