import Verif.EqSpec
import Verif.Hash
/-!
# Specification of hash tables: finite maps

A finite map from key classes to values is an association list without duplicate classes.
-/
namespace Pscm
namespace Spec

variable {κ : Type} [DecidableEq κ]

/-- The value stored for `c`. -/
def mget (m : List (κ × Obj)) (c : κ) : Option Obj := (m.find? (fun x => decide (x.1 = c))).map (·.2)
/-- The map without `c`. -/
def mremove (m : List (κ × Obj)) (c : κ) : List (κ × Obj) := m.filter (fun x => decide (x.1 ≠ c))
/-- The map with `c` bound to `v`. -/
def mset (m : List (κ × Obj)) (c : κ) (v : Obj) : List (κ × Obj) := (c, v) :: mremove m c

/-- One step of a program that uses a table. `other` is anything else the program does that only allocates. -/
inductive HOp
  | set (k v : Obj)
  | create (k v : Obj)
  | remove (k : Obj)
  | ref (k : Obj)
  | handle (k : Obj)
  | other (f : Heap → Heap)

/-- The key used by a step. -/
def HOp.key? : HOp → Option Obj
  | .set k _ => some k
  | .create k _ => some k
  | .remove k => some k
  | .ref k => some k
  | .handle k => some k
  | .other _ => none

/-- The intended effect of a step on the finite map. -/
def HOp.apply (cls : Obj → κ) (m : List (κ × Obj)) : HOp → List (κ × Obj)
  | .set k v => mset m (cls k) v
  | .create k v => mset m (cls k) v
  | .remove k => mremove m (cls k)
  | _ => m

/-- The finite map after a sequence of steps, starting from the empty map. -/
def mapAfter (cls : Obj → κ) (ops : List HOp) : List (κ × Obj) := ops.foldl (HOp.apply cls) []

/-- What two keys have in common when `hashq-…` treats them as the same key: a symbol's name, or the object. -/
inductive QKey | name (s : List UInt8) | obj (o : Obj)
  deriving DecidableEq
def qKey (o : Obj) : QKey := match o.v with | .sym s => .name s | _ => .obj o

/-- The same for `hashv-…`: the value of an integer, character or boolean, or the object. -/
inductive VKey | int (n : Int) | chr (c : UInt8) | bool (b : Bool) | obj (o : Obj)
  deriving DecidableEq
def vKey (o : Obj) : VKey :=
  match o.v with
  | .num n => .int n
  | .chr c => .chr c
  | .bool b => .bool b
  | _ => .obj o

/-- Data that `hash-…` handles: integers, strings and symbols (without NUL), the objects `()`, `#t`, `#f`, and proper
lists (written without dots) of such data.  `KeyData h o t`: the object `o` is such a datum and denotes the tree `t`. -/
inductive KeyData (h : Heap) : Obj → Tree → Prop
  | nil : KeyData h Obj.nil .nil
  | t : KeyData h Obj.t (.bool true)
  | f : KeyData h Obj.f (.bool false)
  | int (i n) : KeyData h ⟨i, .num n⟩ (.int n)
  | sym (i s) : (0 : UInt8) ∉ s → KeyData h ⟨i, .sym s⟩ (.sym s)
  | str (i a s) : h.strs[a]? = some s → (0 : UInt8) ∉ s → KeyData h ⟨i, .str a⟩ (.str s)
  | last (i a n t) : h.nodes[a]? = some n → n.next = none → KeyData h n.data t → KeyData h ⟨i, .list a⟩ (.cons t .nil)
  | next (i a b n m t u) : h.nodes[a]? = some n → n.next = some b → h.nodes[b]? = some m → m.dotted = false →
      KeyData h n.data t → KeyData h ⟨0, .list b⟩ u → KeyData h ⟨i, .list a⟩ (.cons t u)

end Spec

/-- Run one step of a program on a table. -/
def HOp.run (fam : Fam) (fuel : Nat) (t : HT) : Spec.HOp → M HT
  | .set k v => do let (_, t') ← hashSet fam t k v; pure t'
  | .create k v => do let (_, t') ← hashCreateHandle fam fuel t k v; pure t'
  | .remove k => do let (_, t') ← hashRemove fam t k; pure t'
  | .ref k => do let _ ← hashRef fam t k; pure t
  | .handle k => do let _ ← hashGetHandle fam t k; pure t
  | .other f => fun h => (.ok t, f h)

/-- Run a sequence of steps. -/
def runHOps (fam : Fam) (fuel : Nat) : List Spec.HOp → HT → M HT
  | [], t => pure t
  | op :: ops, t => do let t' ← HOp.run fam fuel t op; runHOps fam fuel ops t'

end Pscm
