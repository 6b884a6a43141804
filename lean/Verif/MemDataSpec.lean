import Verif.HeapSpec
import Verif.RefStd
/-!
# Data in memory: the specification

What it means that an object in memory holds a datum of the reference semantics: the contents of the records and list nodes, whatever their addresses and whatever they share
with other data.
-/
namespace Pscm
namespace Spec

/-- The text of bytes. -/
def textOf (bs : List UInt8) : String := String.ofList (bs.map fun b => Char.ofNat b.toNat)

/-- The value `v` in the heap `h` holds the datum `u`.  Integers have 64 bits; symbols and strings have less than 2^31 - 1 characters, symbols without the null character.  A pair is an ordinary node; its cdr is the rest of the chain, the empty list
at the end of the chain, or, if it is neither a pair nor the empty list, the content of a flagged node. -/
inductive Holds (h : Heap) : Val → Ref.Val → Prop
  | nil : Holds h .nil .nil
  | bool (b : Bool) : Holds h (.bool b) (.bool b)
  | num (n : Int) : Ref.Word n → Holds h (.num n) (.num n)
  | chr (c : UInt8) : Holds h (.chr c) (.chr c)
  | sym (s : List UInt8) : (0 : UInt8) ∉ s → s.length < 2 ^ 31 - 1 → Holds h (.sym s) (.sym (textOf s))
  | str (a : Addr) (s : List UInt8) : h.strs[a]? = some s → s.length < 2 ^ 31 - 1 → Holds h (.str a) (.str (textOf s))
  | last {a : Addr} {n : Node} {u : Ref.Val} : h.nodes[a]? = some n → n.dotted = false → n.next = none → Holds h n.data.v u → Holds h (.list a) (.pair u .nil)
  | next {a b : Addr} {n : Node} {u w : Ref.Val} : h.nodes[a]? = some n → n.dotted = false → n.next = some b → Holds h n.data.v u → Holds h (.list b) w →
      Holds h (.list a) (.pair u w)
  | dot {a b : Addr} {n m : Node} {u w : Ref.Val} : h.nodes[a]? = some n → n.dotted = false → n.next = some b → h.nodes[b]? = some m → m.dotted = true → m.next = none →
      m.data.v.ty ≠ .list → m.data.v ≠ .nil → Holds h n.data.v u → Holds h m.data.v w → Holds h (.list a) (.pair u w)

/-- The objects hold the data, in order. -/
inductive HoldAll (h : Heap) : List Obj → List Ref.Val → Prop
  | nil : HoldAll h [] []
  | cons {o : Obj} {u : Ref.Val} {os : List Obj} {us : List Ref.Val} : Holds h o.v u → HoldAll h os us → HoldAll h (o :: os) (u :: us)

/-- A program of calls: each line is the name of a builtin and the numbers of the results it is applied to (first the given data, then the results of the lines before). -/
abbrev Lines := List (String × List Nat)

/-- The results with these numbers. -/
def picks {α : Type} (rs : List α) : List Nat → Option (List α)
  | [] => some []
  | i :: is => (rs[i]?).bind fun r => (picks rs is).map (r :: ·)

/-- What the program computes: all results in order. -/
def meaning : Lines → List Ref.Val → Ref.Ret (List Ref.Val)
  | [], us => .val us
  | (f, is) :: ls, us =>
    match picks us is with
    | none => .unknown
    | some as =>
      match Ref.stdAp f as with
      | .val v => meaning ls (us ++ [v])
      | .error => .error
      | .unknown => .unknown

end Spec
end Pscm
