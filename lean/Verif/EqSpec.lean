import Verif.Eq
/-!
# Specification of structural equality

What a Scheme program can observe of a datum through `car`, `cdr`, `vector-ref`, `string-ref`, …: a tree.
Independent of the comparison code.
-/
namespace Pscm
namespace Spec

/-- An abstract datum. -/
inductive Tree
  | nil
  | int (n : Int)
  | bool (b : Bool)
  | chr (c : UInt8)
  | sym (s : List UInt8)
  | str (s : List UInt8)
  | cons (a d : Tree)
  | vec (ts : List Tree)

mutual
/-- `Denotes dots h v t`: the value `v` in heap `h` is (finite) data denoting the tree `t`.
A pair is a list node; its cdr is the datum stored in the following node when that node is flagged (a dotted pair;
allowed only if `dots`), otherwise the pair starting at the following node, otherwise the empty list.  With
`dots = false` this is data all of whose lists are proper and written without dots. -/
inductive Denotes (dots : Bool) (h : Heap) : Val → Tree → Prop
  | nil : Denotes dots h .nil .nil
  | int (n) : Denotes dots h (.num n) (.int n)
  | bool (b) : Denotes dots h (.bool b) (.bool b)
  | chr (c) : Denotes dots h (.chr c) (.chr c)
  | sym (s) : (0 : UInt8) ∉ s → Denotes dots h (.sym s) (.sym s)
  | str (a s) : h.strs[a]? = some s → (0 : UInt8) ∉ s → Denotes dots h (.str a) (.str s)
  | pairLast (a n t) : h.nodes[a]? = some n → n.next = none → Denotes dots h n.data.v t →
      Denotes dots h (.list a) (.cons t .nil)
  | pairNext (a b n m t u) : h.nodes[a]? = some n → n.next = some b → h.nodes[b]? = some m → m.dotted = false →
      Denotes dots h n.data.v t → Denotes dots h (.list b) u → Denotes dots h (.list a) (.cons t u)
  | pairDot (a b n m t u) : dots = true → h.nodes[a]? = some n → n.next = some b → h.nodes[b]? = some m →
      m.dotted = true → Denotes dots h n.data.v t → Denotes dots h m.data.v u →
      Denotes dots h (.list a) (.cons t u)
  | vec (a xs ts) : h.vecs[a]? = some xs → DenotesAll dots h xs ts → Denotes dots h (.vec a) (.vec ts)
inductive DenotesAll (dots : Bool) (h : Heap) : List Obj → List Tree → Prop
  | nil : DenotesAll dots h [] []
  | cons (x xs t ts) : Denotes dots h x.v t → DenotesAll dots h xs ts → DenotesAll dots h (x :: xs) (t :: ts)
end

end Spec
end Pscm
