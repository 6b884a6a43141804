import Verif.ListM
import Verif.Eq
/-!
# Hash tables — model of `src/c/hash_table.cc`

A table (`HT`) is a value: its capacity, its entry count and its buckets.  The chain of list nodes that makes up a
bucket is reachable only from the table (no procedure returns it), so a bucket is modelled as the list of the addresses
of its entries.  The entries themselves (`entry_pair`, two list nodes `key → value`) do live in the heap, because
`hash-get-handle` and `hash-create-handle!` give them to the program.  The `SCM` records that wrap the private chain
nodes are not modelled.

`addr` gives the machine address of the `SCM` record with a given identity; the theorems hold for every such function.
-/
namespace Pscm

/-- `SCM_HashTable`, src/c/pscm_types.h:107-111 (field `buckets` has `capacity` elements). -/
structure HT where
  cap : Nat
  size : Nat
  buckets : List (List Addr)
  deriving DecidableEq, Repr

/-- Conversion to `unsigned long`. -/
def toU64 (x : Int) : Nat := (x % 2 ^ 64).toNat

/-- `hash_string_content`, src/c/hash_table.cc:6-12. -/
def hashBytes (s : List UInt8) : Nat := s.foldl (fun h c => (h * 31 + c.toNat) % 2 ^ 64) 0

section
variable (addr : Nat → Nat)

/-- `scm_hash_code_eq`, src/c/hash_table.cc:15-25. -/
def hashEq (key : Obj) : Nat :=
  match key.v with
  | .sym s => hashBytes s
  | _ => addr key.id % 2 ^ 64

/-- `scm_hash_code_eqv`, src/c/hash_table.cc:28-40. -/
def hashEqv (key : Obj) : Nat :=
  match key.v with
  | .num n => toU64 n
  | .chr c => c.toNat
  | .bool b => if b then 1 else 0
  | _ => hashEq addr key

/-- `hash_list_content`, src/c/hash_table.cc:44-71, from a non-null node: the loop over the nodes with accumulator `acc`,
recursing into elements that are pairs.  The dotted flags are ignored. -/
def hashList (h : Heap) : Nat → Option Addr → Nat → Res Nat
  | 0, _, _ => .oof
  | _ + 1, none, acc => .ok acc
  | fuel + 1, some a, acc => do
    let n ← node? h a
    let carHash ← match n.data.v with
      | .sym s => pure (hashBytes s)
      | .str x => match h.strs[x]? with
        | some s => pure (hashBytes s)
        | none => .ub
      | .num k => pure (toU64 k)
      | .list b => hashList h fuel (some b) 0
      | _ => pure (addr n.data.id % 2 ^ 64)
    hashList h fuel n.next ((acc * 31 + carHash) % 2 ^ 64)

/-- `scm_hash_code_equal`, src/c/hash_table.cc:73-95. -/
def hashEqual (h : Heap) (fuel : Nat) (key : Obj) : Res Nat :=
  match key.v with
  | .sym s => .ok (hashBytes s)
  | .str x => match h.strs[x]? with
    | some s => .ok (hashBytes s)
    | none => .ub
  | .num n => .ok (toU64 n)
  | .list a => hashList addr h fuel (some a) 0
  | _ => .ok (hashEq addr key)
end

/-- `scm_cmp_eq`, src/c/hash_table.cc:98-112. -/
def cmpEq (a b : Obj) : Bool :=
  match a.v, b.v with
  | .sym s, .sym t => if s.length ≠ t.length then false else decide (s = t)
  | _, _ => decide (a = b)

/-- `scm_cmp_eqv`, src/c/hash_table.cc:114-127. -/
def cmpEqv (a b : Obj) : Bool :=
  if a = b then true
  else if a.v.ty ≠ b.v.ty then false
  else match a.v, b.v with
    | .num x, .num y => decide (x = y)
    | .chr x, .chr y => decide (x = y)
    | .bool x, .bool y => decide (x = y)
    | _, _ => decide (a = b)

/-- A family of procedures: the hash function and the comparison passed to the generic implementation
(src/c/hash_table.cc:438-500). -/
structure Fam where
  hash : Heap → Obj → Res Nat
  cmp : Heap → Obj → Obj → Res Bool

/-- `hashq-…` -/
def famQ (addr : Nat → Nat) : Fam := ⟨fun _ k => .ok (hashEq addr k), fun _ a b => .ok (cmpEq a b)⟩
/-- `hashv-…` -/
def famV (addr : Nat → Nat) : Fam := ⟨fun _ k => .ok (hashEqv addr k), fun _ a b => .ok (cmpEqv a b)⟩
/-- `hash-…` (`scm_cmp_equal`, src/c/hash_table.cc:129-131, is `_eq`). -/
def famE (F : FArith) (addr : Nat → Nat) (fuel : Nat) : Fam :=
  ⟨fun h k => hashEqual addr h fuel k, fun h a b => legacyEq F h fuel a b⟩

/-- `make-hash-table`, src/c/hash_table.cc:240-264, 431-436: `none` for no argument.  A capacity that cannot be
allocated (`calloc` returns null and is then written through) is undefined behaviour; the model uses `2^60` as the
bound. -/
def makeHashTable : Option Obj → Res HT
  | none => .ok ⟨31, 0, List.replicate 31 []⟩
  | some o =>
    match o.v with
    | .nil => .ok ⟨31, 0, List.replicate 31 []⟩
    | .num n =>
      let c := toU64 n
      let c := if c = 0 then 31 else c
      if 2 ^ 60 ≤ c then .ub else .ok ⟨c, 0, List.replicate c []⟩
    | _ => .err .evalError

/-- `validate_and_get_bucket_idx`, src/c/hash_table.cc:135-146 (the argument is known to be a table). -/
def bucketIdx (fam : Fam) (t : HT) (key : Obj) : M Nat := do
  let x ← M.read (fun h => fam.hash h key)
  if t.cap = 0 then M.lift .ub else pure (x % t.cap)

/-- `hash_table->buckets[idx]` -/
def bucketAt (t : HT) (i : Nat) : M (List Addr) := M.lift (match t.buckets[i]? with | some b => .ok b | none => .ub)

/-- `find_entry_in_bucket`, src/c/hash_table.cc:160-175. -/
def findEntry (fam : Fam) (key : Obj) : List Addr → M (Option Addr)
  | [] => pure none
  | e :: r => do
    let n ← getNode e
    let c ← M.read (fun h => fam.cmp h key n.data)
    if c then pure (some e) else findEntry fam key r

/-- `update_entry_value`, src/c/hash_table.cc:149-157. -/
def updateEntry (e : Addr) (value : Obj) : M Unit := do
  let n ← getNode e
  match n.next with
  | some b => do
    let m ← getNode b
    setNode b ⟨value, m.next, true⟩
  | none => do
    let b ← allocNode ⟨value, none, true⟩
    setNode e { n with next := some b }

/-- `insert_entry_to_bucket`, src/c/hash_table.cc:181-205. -/
def insertEntry (t : HT) (i : Nat) (key value : Obj) : M (Obj × HT) := do
  let e ← makeList key
  let b ← allocNode ⟨value, none, true⟩
  setNode e ⟨key, some b, false⟩
  let old ← bucketAt t i
  let o ← newObj (.list e)
  pure (o, { t with buckets := t.buckets.set i (e :: old), size := t.size + 1 })

/-- `remove_entry_from_bucket`, src/c/hash_table.cc:209-237: unlink the first match; `none` if there is none. -/
def removeFrom (fam : Fam) (key : Obj) : List Addr → M (Option (List Addr))
  | [] => pure none
  | e :: r => do
    let n ← getNode e
    let c ← M.read (fun h => fam.cmp h key n.data)
    if c then pure (some r)
    else do
      let q ← removeFrom fam key r
      pure (q.map (e :: ·))

/-- `scm_c_hash_set`, src/c/hash_table.cc:267-286. -/
def hashSet (fam : Fam) (t : HT) (key value : Obj) : M (Obj × HT) := do
  let i ← bucketIdx fam t key
  let b ← bucketAt t i
  match ← findEntry fam key b with
  | some e => do updateEntry e value; pure (value, t)
  | none => do
    let (_, t') ← insertEntry t i key value
    pure (value, t')

/-- `scm_c_hash_ref`, src/c/hash_table.cc:289-312. -/
def hashRef (fam : Fam) (t : HT) (key : Obj) : M Obj := do
  let i ← bucketIdx fam t key
  let b ← bucketAt t i
  match ← findEntry fam key b with
  | some e => do
    let n ← getNode e
    match n.next with
    | some b => do let m ← getNode b; pure m.data
    | none => pure Obj.nil
  | none => pure Obj.f

/-- `scm_c_hash_get_handle`, src/c/hash_table.cc:315-332. -/
def hashGetHandle (fam : Fam) (t : HT) (key : Obj) : M Obj := do
  let i ← bucketIdx fam t key
  let b ← bucketAt t i
  match ← findEntry fam key b with
  | some e => newObj (.list e)
  | none => pure Obj.f

/-- `scm_c_hash_create_handle`, src/c/hash_table.cc:335-354. -/
def hashCreateHandle (fam : Fam) (fuel : Nat) (t : HT) (key value : Obj) : M (Obj × HT) := do
  let i ← bucketIdx fam t key
  let b ← bucketAt t i
  match ← findEntry fam key b with
  | some e => do
    updateEntry e value
    let n ← getNode e
    match n.next with
    | some b => do
      let m ← getNode b
      let o ← cons fuel n.data m.data
      pure (o, t)
    | none => M.lift .ub
  | none => insertEntry t i key value

/-- `scm_c_hash_remove`, src/c/hash_table.cc:357-371. -/
def hashRemove (fam : Fam) (t : HT) (key : Obj) : M (Obj × HT) := do
  let i ← bucketIdx fam t key
  let b ← bucketAt t i
  match ← removeFrom fam key b with
  | some r => pure (Obj.none, { t with buckets := t.buckets.set i r, size := t.size - 1 })
  | none => pure (Obj.none, t)

/-- The loops of `scm_c_hash_fold`, src/c/hash_table.cc:386-425, over the entries of all buckets in order.  `proc` stands
for the call `(proc 'key 'value 'result)`. -/
def foldEntries (proc : Obj → Obj → Obj → M Obj) : List Addr → Obj → M Obj
  | [], r => pure r
  | e :: es, r => do
    let n ← getNode e
    match n.next with
    | some b => do
      let m ← getNode b
      let r' ← proc n.data m.data r
      foldEntries proc es r'
    | none => foldEntries proc es r

/-- `scm_c_hash_fold`, src/c/hash_table.cc:374-428. -/
def hashFold (proc : Obj → Obj → Obj → M Obj) (init : Obj) (t : HT) : M Obj := foldEntries proc t.buckets.flatten init

end Pscm
