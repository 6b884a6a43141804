import Verif.Heap
/-!
# Specification vocabulary for the heap

Independent of the code being modelled: what it means for an object to represent a list.
-/
namespace Pscm
namespace Spec

/-- The `next` pointers starting at `p` visit exactly the listed nodes, in order, and end in null. -/
def Path (h : Heap) : Option Addr → List (Addr × Node) → Prop
  | p, [] => p = none
  | p, (a, n) :: r => p = some a ∧ h.nodes[a]? = some n ∧ Path h n.next r

/-- The pointer to the first node of a pair-or-nil object. -/
def start? : Val → Option (Option Addr)
  | .list a => some (some a)
  | .nil => some none
  | _ => none

/-- `o` is a finite chain of nodes with the given addresses and data, whatever the dotted flags. -/
def RawList (h : Heap) (o : Obj) (as : List Addr) (xs : List Obj) : Prop :=
  ∃ p ns, start? o.v = some p ∧ Path h p ns ∧ ns.map (·.1) = as ∧ ns.map (·.2.data) = xs

/-- `o` is a proper list made of ordinary pairs: the pairs are at addresses `as`, the elements are `xs`, and no
node is flagged as the cdr of a dotted pair.  This is what `list`, `cons` onto such a list, and the reader on a
list without dots produce. -/
def ProperList (h : Heap) (o : Obj) (as : List Addr) (xs : List Obj) : Prop :=
  ∃ p ns, start? o.v = some p ∧ Path h p ns ∧ ns.map (·.1) = as ∧ ns.map (·.2.data) = xs ∧
    ∀ x ∈ ns, x.2.dotted = false

/-- `o` is an improper list `(x … . t)` in the representation used by the reader, `cons` and `set-cdr!`: ordinary
nodes for the cars (at least one) followed by one flagged node holding the tail. -/
def ImproperList (h : Heap) (o : Obj) (xs : List Obj) (t : Obj) : Prop :=
  ∃ p ns b, start? o.v = some p ∧ Path h p (ns ++ [(b, ⟨t, none, true⟩)]) ∧ ns ≠ [] ∧
    ns.map (·.2.data) = xs ∧ ∀ x ∈ ns, x.2.dotted = false

/-- What a Scheme program sees through `car` and `cdr`: `o` is a list with elements `xs`, however the pairs are
represented. The second node of a pair is its cdr cell if it is flagged, else the next pair. -/
inductive SemList (h : Heap) : Val → List Obj → Prop
  | nil : SemList h .nil []
  | last {a n} : h.nodes[a]? = some n → n.next = none → SemList h (.list a) [n.data]
  | next {a b n m xs} : h.nodes[a]? = some n → n.next = some b → h.nodes[b]? = some m →
      m.dotted = false → SemList h (.list b) xs → SemList h (.list a) (n.data :: xs)
  | dot {a b n m xs} : h.nodes[a]? = some n → n.next = some b → h.nodes[b]? = some m →
      m.dotted = true → SemList h m.data.v xs → SemList h (.list a) (n.data :: xs)

/-- `h'` extends `h`: all existing pairs, vectors and strings are unchanged; objects were only added. -/
structure Ext (h h' : Heap) : Prop where
  nodes : ∀ a, a < h.nodes.length → h'.nodes[a]? = h.nodes[a]?
  len : h.nodes.length ≤ h'.nodes.length
  vecs : h'.vecs = h.vecs
  strs : h'.strs = h.strs
  ids : h.nextId ≤ h'.nextId

end Spec
end Pscm
