/-
hash-fold and module-map over a table that their procedure changes (src/c/hash_table.cc, src/c/module.cc).

`Hash.lean` models the tables with the buckets as lists of entries and a fold whose procedure leaves the table alone.  Here the chains are memory: nodes with `next` pointers, so that a loop that
holds a pointer to a node sees what happens to a node that has been unlinked.  Simplifications: a node and its entry pair (hash_table.cc:181-205) are one record; the keys are abstract, the family of
functions (hashq, hashv, hash) is one hash function and the equality of keys; nodes are never freed (the loops' pointer is on the C stack, which the collector scans); the entry pairs themselves are
not changed by the program (set-car! on a handle).
-/
namespace Pscm.Itr

/-- A node of a bucket with its entry `(key . value)`: hash_table.cc:181-205. -/
structure Node (K V : Type) where
  key : K
  val : V
  next : Option Nat

/-- SCM_HashTable (pscm_types.h: buckets, capacity): `nodes` are all nodes allocated so far, in the order of their allocation; a bucket is a pointer to its first node, or nil.  The number of buckets
never changes: there is no rehash in hash_table.cc.  (`size` is not modelled: no loop reads it.) -/
structure Tbl (K V : Type) where
  nodes : List (Node K V)
  buckets : List (Option Nat)

/-- What a procedure can do to the table: hash-set! (also hash-create-handle! and, for modules, define: module.cc) and hash-remove!. -/
inductive Op (K V : Type) where
  | set (k : K) (v : V)
  | remove (k : K)

variable {K V A : Type} [DecidableEq K]

/-- hash_table.cc:240-263: an empty table with `cap` buckets. -/
def make (cap : Nat) : Tbl K V := ⟨[], List.replicate cap none⟩

/-- hash_table.cc:144 `hash % capacity`. -/
def slot (hash : K → Nat) (t : Tbl K V) (k : K) : Nat := hash k % t.buckets.length

/-- The loop of hash_table.cc:160-175 `find_entry_in_bucket` (and of remove_entry_from_bucket, 209-237): the node that has the key and the node before it.  `none`: a dangling pointer, or the loop
has not ended within the fuel. -/
def findFrom (nodes : List (Node K V)) (key : K) : Nat → Option Nat → Option Nat → Option (Option (Option Nat × Nat))
  | _, _, none => some none
  | 0, _, some _ => none
  | f + 1, prev, some l =>
    match nodes[l]? with
    | none => none
    | some n => if n.key = key then some (some (prev, l)) else findFrom nodes key f (some l) n.next

/-- The search in the bucket of the key. -/
def find (hash : K → Nat) (t : Tbl K V) (key : K) : Option (Option (Option Nat × Nat)) :=
  match t.buckets[slot hash t key]? with
  | none => none
  | some head => findFrom t.nodes key t.nodes.length none head

/-- hash_table.cc:289-312 hash-ref: the value of a key; `some none`: not bound. -/
def ref (hash : K → Nat) (t : Tbl K V) (key : K) : Option (Option V) :=
  match find hash t key with
  | none => none
  | some none => some none
  | some (some (_, l)) => match t.nodes[l]? with | none => none | some n => some (some n.val)

/-- hash_table.cc:267-286 hash-set! (update_entry_value 149-157, insert_entry_to_bucket 181-205: at the head of the bucket) and 357-371 hash-remove! (209-237: the node before it, or the bucket, is
made to point to the node after it; the node itself keeps its `next`). -/
def step (hash : K → Nat) (t : Tbl K V) : Op K V → Option (Tbl K V)
  | .set k v =>
    match find hash t k with
    | none => none
    | some (some (_, l)) => match t.nodes[l]? with | none => none | some n => some { t with nodes := t.nodes.set l { n with val := v } }
    | some none =>
      match t.buckets[slot hash t k]? with
      | none => none
      | some head => some ⟨t.nodes ++ [⟨k, v, head⟩], t.buckets.set (slot hash t k) (some t.nodes.length)⟩
  | .remove k =>
    match find hash t k with
    | none => none
    | some none => some t
    | some (some (prev, l)) =>
      match t.nodes[l]? with
      | none => none
      | some n =>
        match prev with
        | none => some { t with buckets := t.buckets.set (slot hash t k) n.next }
        | some p => match t.nodes[p]? with | none => none | some np => some { t with nodes := t.nodes.set p { np with next := n.next } }

/-- A sequence of changes. -/
def run (hash : K → Nat) (t : Tbl K V) : List (Op K V) → Option (Tbl K V)
  | [] => some t
  | o :: os => match step hash t o with | none => none | some t' => run hash t' os

/-- The procedure of a fold, called with a key, its value and the result so far (and able to look at the table): the changes it makes and its result; no result: an error, or another non-local exit. -/
abbrev Proc (K V A : Type) := K → V → A → Tbl K V → List (Op K V) × Option A

/-- One call of the procedure (a record for the theorems): key, value and result it was called with, and the table at that time. -/
structure Visit (K V A : Type) where
  key : K
  val : V
  acc : A
  tab : Tbl K V

/-- The state of a fold; `log` is what has happened and is not read by the loop. -/
structure St (K V A : Type) where
  tab : Tbl K V
  acc : A
  log : List (Visit K V A)

/-- How a fold ends: it returns, or the procedure leaves it, or it never ends or follows a dangling pointer. -/
inductive Out (K V A : Type) where
  | done (s : St K V A)
  | left (s : St K V A)
  | stuck

/-- The inner loop of hash-fold, hash_table.cc:387-424, and of module-map, module.cc:993-1035: the pointer `l` is followed after the call (424, 1034). -/
def walk (hash : K → Nat) (proc : Proc K V A) : Nat → Option Nat → St K V A → Out K V A
  | _, none, s => .done s
  | 0, some _, _ => .stuck
  | f + 1, some l, s =>
    match s.tab.nodes[l]? with
    | none => .stuck
    | some n =>
      match run hash s.tab (proc n.key n.val s.acc s.tab).1 with
      | none => .stuck
      | some t' =>
        match (proc n.key n.val s.acc s.tab).2 with
        | none => .left ⟨t', s.acc, s.log ++ [⟨n.key, n.val, s.acc, s.tab⟩]⟩
        | some a => match t'.nodes[l]? with | none => .stuck | some n' => walk hash proc f n'.next ⟨t', a, s.log ++ [⟨n.key, n.val, s.acc, s.tab⟩]⟩

/-- The outer loop, hash_table.cc:384-427 and module.cc:988-1038: each bucket is read when its turn comes. -/
def buckets (hash : K → Nat) (proc : Proc K V A) : List Nat → St K V A → Out K V A
  | [], s => .done s
  | i :: is, s =>
    match s.tab.buckets[i]? with
    | none => .stuck
    | some head =>
      match walk hash proc s.tab.nodes.length head s with
      | .done s' => buckets hash proc is s'
      | o => o

/-- hash_table.cc:374-429 hash-fold. -/
def fold (hash : K → Nat) (proc : Proc K V A) (init : A) (t : Tbl K V) : Out K V A := buckets hash proc (List.range t.buckets.length) ⟨t, init, []⟩

/-- module.cc:961-1041 module-map: the same loops; the list of the results so far (1022-1031) is not seen by the procedure, which has a state `S` of its own. -/
def moduleMap {R S : Type} (hash : K → Nat) (proc : K → V → S → Tbl K V → List (Op K V) × Option (R × S)) (s : S) (t : Tbl K V) : Out K V (List R × S) :=
  fold hash (fun k v a tab => ((proc k v a.2 tab).1, (proc k v a.2 tab).2.map (fun r => (a.1 ++ [r.1], r.2)))) ([], s) t

end Pscm.Itr
