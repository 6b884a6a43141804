import Verif.ListM
/-!
# Vectors — model of `src/c/vector.cc`

A vector is a list of objects in `Heap.vecs`.  Exhaustion of memory is not modelled, except that a request above
`PTRDIFF_MAX` bytes always fails (`std::bad_array_new_length`, an uncaught C++ exception: abort).
-/
namespace Pscm

/-- `gc_alloc(GC_VECTOR, …)`, the elements, and `wrap`. -/
def newVec (xs : List Obj) : M Obj := fun h =>
  (.ok ⟨h.nextId, .vec h.vecs.length⟩, { h with vecs := h.vecs ++ [xs], nextId := h.nextId + 1 })

/-- `scm_c_make_vector_impl`, src/c/vector.cc:5-32. -/
def makeVectorImpl (len : Obj) (fill : Option Obj) : M Obj :=
  match len.v with
  | .num n =>
    if n < 0 then M.throw .evalError
    else if 2 ^ 60 ≤ n then M.lift .abort
    else newVec (List.replicate n.toNat (fill.getD Obj.none))
  | _ => M.throw .evalError

/-- `scm_c_make_vector`, src/c/vector.cc:35-44; `args` are the evaluated arguments. -/
def makeVector : List Obj → M Obj
  | [] => M.throw .evalError
  | [k] => makeVectorImpl k none
  | k :: fill :: _ => makeVectorImpl k (some fill)

/-- `scm_c_vector`, src/c/vector.cc:47-72: one slot per argument, in order. -/
def vector (args : List Obj) : M Obj := newVec args

/-- Read the contents of a vector object; anything else is a Scheme error. -/
def vecOf (o : Obj) : M (Addr × List Obj) := fun h =>
  match o.v with
  | .vec a => match h.vecs[a]? with
    | some xs => (.ok (a, xs), h)
    | none => (.ub, h)
  | _ => (.err .evalError, h)

/-- `scm_c_vector_length`, src/c/vector.cc:75-86. -/
def vectorLength (o : Obj) : M Obj := do
  let (_, xs) ← vecOf o
  newObj (.num xs.length)

/-- The index check of `vector-ref`/`vector-set!`, src/c/vector.cc:94-105, 116-127: a number `0 ≤ idx < length`. -/
def vecIndex (k : Obj) (len : Nat) : Res Nat :=
  match k.v with
  | .num idx => if idx < 0 ∨ (len : Int) ≤ idx then .err .evalError else .ok idx.toNat
  | _ => .err .evalError

/-- `scm_c_vector_ref`, src/c/vector.cc:89-108. -/
def vectorRef (o k : Obj) : M Obj := do
  let (_, xs) ← vecOf o
  let i ← M.lift (vecIndex k xs.length)
  match xs[i]? with
  | some x => pure x
  | none => M.lift .ub

/-- The write `v->elements[idx] = obj`, src/c/vector.cc:129. -/
def writeVec (a : Addr) (xs : List Obj) (i : Nat) (x : Obj) : M Obj := fun h =>
  if i < xs.length then (.ok Obj.none, { h with vecs := h.vecs.set a (xs.set i x) }) else (.ub, h)

/-- `scm_c_vector_set`, src/c/vector.cc:111-131. -/
def vectorSet (o k x : Obj) : M Obj := do
  let (a, xs) ← vecOf o
  let i ← M.lift (vecIndex k xs.length)
  writeVec a xs i x

/-- The loop of `vector->list`, src/c/vector.cc:147-154, for `i = k-1, …, 0`. -/
def vecToListLoop (xs : List Obj) : Nat → Option Addr → M (Option Addr)
  | 0, r => pure r
  | k + 1, r => do
    match xs[k]? with
    | some x => do
      let a ← allocNode ⟨x, r, false⟩
      vecToListLoop xs k (some a)
    | none => M.lift .ub

/-- The conversion `(int)(size_t)n`. -/
def toI32 (n : Nat) : Int :=
  let m : Nat := n % 2 ^ 32
  if m < 2 ^ 31 then (m : Int) else (m : Int) - 2 ^ 32

/-- `scm_c_vector_to_list`, src/c/vector.cc:134-157; the loop counter is a C++ `int`. -/
def vectorToList (o : Obj) : M Obj := do
  let (_, xs) ← vecOf o
  if xs.length = 0 then pure Obj.nil
  else do
    let i ← M.lift (i32 (toI32 xs.length - 1))
    wrapList (← vecToListLoop xs (i + 1).toNat none)

/-- The counting and copying loops of `list->vector`, src/c/vector.cc:174-183, 190-195: the data of all the nodes of
the chain, whatever their flags. -/
def chainData : Nat → Addr → M (List Obj)
  | 0, _ => M.lift .oof
  | fuel + 1, a => do
    let n ← getNode a
    match n.next with
    | none => pure [n.data]
    | some b => do
      let r ← chainData fuel b
      pure (n.data :: r)

/-- `scm_c_list_to_vector`, src/c/vector.cc:160-201. -/
def listToVector (fuel : Nat) (o : Obj) : M Obj :=
  match o.v with
  | .nil => newVec []
  | .list a => do newVec (← chainData fuel a)
  | _ => M.throw .evalError

end Pscm
