import Verif.MemDataSpec
/-!
# Assignments to pairs: the specification
-/
namespace Pscm
namespace Spec

/-- The list node `b` is part of the value: it is the pair itself, or part of its car or cdr. -/
inductive Uses (h : Heap) : Val → Addr → Prop
  | here {a : Addr} : Uses h (.list a) a
  | car {a b : Addr} {n : Node} : h.nodes[a]? = some n → Uses h n.data.v b → Uses h (.list a) b
  | cdr {a b c : Addr} {n : Node} : h.nodes[a]? = some n → n.next = some c → Uses h (.list c) b → Uses h (.list a) b

/-- The datum that the value holds if the pair at `a` is read as the datum `d`: a part that does not contain the pair is as it is in memory. -/
inductive ReadWith (h : Heap) (a : Addr) (d : Ref.Val) : Val → Ref.Val → Prop
  | here : ReadWith h a d (.list a) d
  | apart {v : Val} {u : Ref.Val} : Holds h v u → ¬ Uses h v a → ReadWith h a d v u
  | last {b : Addr} {n : Node} {u : Ref.Val} : b ≠ a → h.nodes[b]? = some n → n.dotted = false → n.next = none → ReadWith h a d n.data.v u → ReadWith h a d (.list b) (.pair u .nil)
  | next {b c : Addr} {n : Node} {u w : Ref.Val} : b ≠ a → h.nodes[b]? = some n → n.dotted = false → n.next = some c → ReadWith h a d n.data.v u → ReadWith h a d (.list c) w →
      ReadWith h a d (.list b) (.pair u w)
  | dot {b c : Addr} {n m : Node} {u w : Ref.Val} : b ≠ a → h.nodes[b]? = some n → n.dotted = false → n.next = some c → h.nodes[c]? = some m → m.dotted = true →
      ReadWith h a d n.data.v u → ReadWith h a d m.data.v w → ReadWith h a d (.list b) (.pair u w)

end Spec
end Pscm
