import Verif.MemDataSpec
/-!
# Assignments to strings: the specification
-/
namespace Pscm
namespace Spec

/-- The string `a` is part of the value: it is the string itself, or part of its car or cdr. -/
inductive HasStr (h : Heap) : Val → Addr → Prop
  | here {a : Addr} : HasStr h (.str a) a
  | car {a b : Addr} {n : Node} : h.nodes[b]? = some n → HasStr h n.data.v a → HasStr h (.list b) a
  | cdr {a b c : Addr} {n : Node} : h.nodes[b]? = some n → n.next = some c → HasStr h (.list c) a → HasStr h (.list b) a

/-- The datum that the value holds if the string at `a` is read as the datum `d`: a part that does not contain the string is as it is in memory. -/
inductive ReadStr (h : Heap) (a : Addr) (d : Ref.Val) : Val → Ref.Val → Prop
  | here : ReadStr h a d (.str a) d
  | apart {v : Val} {u : Ref.Val} : Holds h v u → ¬ HasStr h v a → ReadStr h a d v u
  | last {b : Addr} {n : Node} {u : Ref.Val} : h.nodes[b]? = some n → n.dotted = false → n.next = none → ReadStr h a d n.data.v u → ReadStr h a d (.list b) (.pair u .nil)
  | next {b c : Addr} {n : Node} {u w : Ref.Val} : h.nodes[b]? = some n → n.dotted = false → n.next = some c → ReadStr h a d n.data.v u → ReadStr h a d (.list c) w →
      ReadStr h a d (.list b) (.pair u w)
  | dot {b c : Addr} {n m : Node} {u w : Ref.Val} : h.nodes[b]? = some n → n.dotted = false → n.next = some c → h.nodes[c]? = some m → m.dotted = true →
      ReadStr h a d n.data.v u → ReadStr h a d m.data.v w → ReadStr h a d (.list b) (.pair u w)

/-- The text with another character at an index. -/
def putChar (t : String) (i : Nat) (c : UInt8) : String := String.ofList (t.toList.set i (Ref.charOf c))

end Spec
end Pscm
