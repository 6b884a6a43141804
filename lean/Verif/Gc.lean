/-!
# The garbage collector (src/c/gc.cc, src/c/gc.h)

Addresses are natural numbers.  Simplifications, for the whole file:

* A block header is a separate record at the address of the block; `hdr a = none` means that the word at `a` does not
  carry `GC_MAGIC`.  Payload words that happen to carry the magic are not modelled.
* Payloads consist of 8-byte words, `mem a` being the word at address `a`.
* The intrusive chain through `next_free` is the list of its blocks.
* malloc'ed data hanging off an object (vector and hash arrays, environment entry chains, the stack copied by a
  continuation) is the list of the words it holds, indexed by the pointer to it.
* The addresses returned by `mmap` are an input; failing `mmap` is not modelled.
-/
namespace Pscm.Gc

/-- `GCBlock` (src/c/gc.h:17-24) without `age` (always 0), `gc_magic`, `next_free`. -/
structure Hdr where
  mark : Bool
  tag : Nat
  size : Nat
  deriving DecidableEq, Repr

/-- `HeapSegment` (src/c/gc.cc:50-55). -/
structure Seg where
  start : Nat
  size : Nat
  bump : Nat
  deriving DecidableEq, Repr

/-- The collector's state (src/c/gc.cc:38-77) and the memory.  `old ++ [cur]` is the segment list: `g_current_seg` is always its
last element (src/c/gc.cc:189-197). -/
structure Heap where
  hdr : Nat → Option Hdr
  mem : Nat → Nat
  /-- arrays of words outside the heap -/
  arr : Nat → List Nat
  old : List Seg
  cur : Seg
  /-- `g_heap_start`, `g_heap_end` -/
  lo : Nat
  hi : Nat
  free : Nat → List Nat
  since : Nat
  threshold : Nat

/-- The outcome of an operation: `crash` is an access to unmapped memory, `more` an exhausted step count. -/
inductive R (α : Type)
  | ok (a : α)
  | crash
  | more
  deriving DecidableEq

def R.bind {α β : Type} : R α → (α → R β) → R β
  | .ok a, f => f a
  | .crash, _ => .crash
  | .more, _ => .more

instance : Monad R where
  pure := .ok
  bind := R.bind

/-- Type tags (src/c/gc.h:28-47). -/
def SCMt : Nat := 0
def LISTt : Nat := 1
def PROCt : Nat := 2
def FUNCt : Nat := 3
def CONTt : Nat := 4
def MODULEt : Nat := 5
def PORTt : Nat := 6
def VECTORt : Nat := 7
def HASHt : Nat := 8
def ENVt : Nat := 9
def STRINGt : Nat := 10
def SYMBOLt : Nat := 11
def NUMBERt : Nat := 12
def PROMISEt : Nat := 13
def MACROt : Nat := 14
def VARIABLEt : Nat := 15
def SMOBt : Nat := 16

/-- The segments in list order. -/
def Heap.segs (h : Heap) : List Seg := h.old ++ [h.cur]

/-- The 16 bytes at `p` are mapped by the collector. -/
def mapped (h : Heap) (p : Nat) : Bool := h.segs.any fun s => s.start ≤ p && p + 16 ≤ s.start + s.size

/-- Read the header at `p`: an access violation outside the segments. -/
def readHdr (h : Heap) (p : Nat) : R (Option Hdr) := if mapped h p then .ok (h.hdr p) else .crash

/-- `is_valid_block` (src/c/gc.h:88-93). -/
def isValidBlock (h : Heap) (p : Nat) : R Bool :=
  if h.lo ≤ p ∧ p + 16 ≤ h.hi ∧ p % 16 = 0 then do
    let r ← readHdr h p
    pure r.isSome
  else pure false

/-- `block->mark = b` -/
def setMark (h : Heap) (p : Nat) (b : Bool) : Heap :=
  { h with hdr := fun a => if a = p then (h.hdr p).map fun d => { d with mark := b } else h.hdr a }

/-- `push_if_unmarked` (src/c/gc.cc:117-123). -/
def pushIfUnmarked (h : Heap) (stack : List Nat) (p : Nat) : R (Heap × List Nat) := do
  if (← isValidBlock h p) then
    match h.hdr p with
    | some d => if d.mark then pure (h, stack) else pure (setMark h p true, p :: stack)
    | none => pure (h, stack)
  else pure (h, stack)

/-- `trace_ptr` (src/c/gc.cc:105-111).  Pointers below 16 other than null are not modelled apart (`ptr - 16` then is a huge address
outside the heap). -/
def tracePtr (h : Heap) (stack : List Nat) (w : Nat) : R (Heap × List Nat) :=
  if w < 16 then pure (h, stack)
  else do
    if (← isValidBlock h (w - 16)) then pushIfUnmarked h stack (w - 16) else pure (h, stack)

/-- The SCM types whose value is a pointer (src/c/gc.cc:490-518; numbering of src/c/pscm_types.h:18-40). -/
def hasPointer (type : Nat) : Bool := type ∈ [2, 3, 4, 5, 12, 13, 15, 16, 18, 20, 17, 19, 11, 10, 14]

/-- An array of `n` words read through a pointer: null is an access violation unless `n = 0`. -/
def readArr (h : Heap) (p n : Nat) : R (List Nat) :=
  if n = 0 then pure [] else if p = 0 then .crash else pure ((h.arr p).take n)

/-- The words that the trace function of `tag` passes to `trace_ptr`, in order (src/c/gc.cc:485-647, 750-752); `o` is the address
of the object.  Field offsets as on x86-64 (src/c/pscm_types.h; `jmp_buf` has 200 bytes). -/
def traceWords (h : Heap) (tag o : Nat) : R (List Nat) :=
  if tag = SCMt then
    pure (if h.mem (o + 8) = 0 then [] else if hasPointer (h.mem o) then [h.mem (o + 8)] else [])
  else if tag = LISTt then pure [h.mem o, h.mem (o + 8)]
  else if tag = PROCt then pure [h.mem o, h.mem (o + 8), h.mem (o + 16), h.mem (o + 24)]
  else if tag = FUNCt then pure [h.mem o, h.mem (o + 24)]
  else if tag = CONTt then pure [h.mem (o + 224), h.mem (o + 240), h.mem (o + 232)]
  else if tag = MODULEt then
    pure [h.mem o, h.mem (o + 8), h.mem (o + 16), h.mem (o + 24), h.mem (o + 32), h.mem (o + 40), h.mem (o + 48), h.mem (o + 56),
      h.mem (o + 64), h.mem (o + 72)]
  else if tag = PORTt then pure [h.mem (o + 48)]
  else if tag = VECTORt then readArr h (h.mem o) (h.mem (o + 8))
  else if tag = HASHt then readArr h (h.mem o) (h.mem (o + 8))
  else if tag = ENVt then pure ((if h.mem (o + 8) = 0 then [] else h.arr (h.mem (o + 8))) ++ [h.mem (o + 16), h.mem (o + 24)])
  else if tag = PROMISEt then pure [h.mem o, h.mem (o + 8)]
  else if tag = MACROt then pure [h.mem o, h.mem (o + 8), h.mem (o + 16)]
  else if tag = VARIABLEt then pure [h.mem o]
  else pure []

/-- `trace_ptr` for each word. -/
def tracePtrs (h : Heap) (stack : List Nat) : List Nat → R (Heap × List Nat)
  | [] => pure (h, stack)
  | w :: ws => do
    let (h, stack) ← tracePtr h stack w
    tracePtrs h stack ws

/-- `mark_if_valid_block` (src/c/gc.cc:314-330): the header is read after a range check of the *object* pointer only. -/
def markIfValid (h : Heap) (stack : List Nat) (w : Nat) : R (Heap × List Nat) :=
  if w = 0 then pure (h, stack)
  else if w < h.lo ∨ h.hi ≤ w then pure (h, stack)
  else if w % 16 ≠ 0 then pure (h, stack)
  else do
    match ← readHdr h (w - 16) with
    | some _ => pushIfUnmarked h stack (w - 16)
    | none => pure (h, stack)

/-- `scan_conservative_roots` (src/c/gc.cc:332-389): `roots` are the words found in the registered roots, the global environment, the
registers and the C stack, in this order. -/
def scanRoots (h : Heap) (stack : List Nat) : List Nat → R (Heap × List Nat)
  | [] => pure (h, stack)
  | w :: ws => do
    let (h, stack) ← markIfValid h stack w
    scanRoots h stack ws

/-- The loop of `mark_phase` (src/c/gc.cc:402-410). -/
def markLoop : Nat → Heap → List Nat → R Heap
  | _, h, [] => pure h
  | 0, _, _ :: _ => .more
  | n + 1, h, b :: stack => do
    match h.hdr b with
    | some d =>
      let ws ← traceWords h d.tag (b + 16)
      let (h, stack) ← tracePtrs h stack ws
      markLoop n h stack
    | none => markLoop n h stack

/-- `mark_phase` (src/c/gc.cc:395-411). -/
def markPhase (n : Nat) (h : Heap) (roots : List Nat) : R Heap := do
  let (h, stack) ← scanRoots h [] roots
  markLoop n h stack

/-- `size_to_bucket` (src/c/gc.cc:129-135). -/
def bucketOf (size : Nat) : Nat :=
  if size ≤ 16 then 0 else if size ≤ 32 then 1 else if size ≤ 64 then 2 else if size ≤ 128 then 3 else 4

/-- `SIZE_CLASSES` (src/c/gc.cc:26). -/
def classSize (b : Nat) : Nat := if b = 0 then 16 else if b = 1 then 32 else if b = 2 then 64 else 128

/-- A word of memory is written. -/
def setWord (h : Heap) (a v : Nat) : Heap := { h with mem := fun x => if x = a then v else h.mem x }

/-- The sweep functions (src/c/gc.cc:653-747): they free malloc'ed data and null the pointers to it. -/
def sweepObj (h : Heap) (tag o : Nat) : Heap :=
  if tag = SCMt then setWord h (o + 16) 0
  else if tag = ENVt then setWord h (o + 8) 0
  else if tag = VECTORt then setWord h o 0
  else if tag = HASHt then setWord h o 0
  else if tag = STRINGt then setWord h o 0
  else if tag = SYMBOLt then setWord h o 0
  else if tag = PORTt then setWord (setWord (setWord (setWord h (o + 8) 0) (o + 16) 0) (o + 32) 0) (o + 56) 0
  else if tag = CONTt then setWord h (o + 208) 0
  else h

/-- `free_to_list` (src/c/gc.cc:141-145). -/
def freeToList (h : Heap) (p size : Nat) : Heap :=
  { h with free := fun b => if b = bucketOf size then p :: h.free b else h.free b }

/-- The walk over one segment in `sweep_phase` (src/c/gc.cc:426-454); the number of steps is at most the number of bytes.  The third
component counts the live bytes. -/
def sweepSeg : Nat → Heap → Nat → Nat → Nat → Heap × Nat
  | 0, h, _, _, live => (h, live)
  | n + 1, h, p, e, live =>
    if p < e then
      match h.hdr p with
      | none => (h, live)
      | some d =>
        if d.mark then sweepSeg n (setMark h p false) (p + (16 + d.size)) e (live + (16 + d.size))
        else sweepSeg n (freeToList (sweepObj h d.tag (p + 16)) p d.size) (p + (16 + d.size)) e live
    else (h, live)

/-- All segments in order. -/
def sweepSegs (h : Heap) (live : Nat) : List Seg → Heap × Nat
  | [] => (h, live)
  | s :: ss =>
    let (h, live) := sweepSeg (s.bump - s.start) h s.start s.bump live
    sweepSegs h live ss

/-- `sweep_phase` (src/c/gc.cc:417-463).  The factor 1.5 is exact below 2^53 bytes. -/
def sweepPhase (h : Heap) : Heap :=
  let (h', live) := sweepSegs { h with free := fun _ => [] } 0 h.segs
  { h' with threshold := max (live * 3 / 2) (2 * 1024 * 1024) }

/-- `run_gc` (src/c/gc.cc:469-473). -/
def runGc (n : Nat) (h : Heap) (roots : List Nat) : R Heap := do
  let h ← markPhase n h roots
  pure { sweepPhase h with since := 0 }

/-- Round up to a multiple. -/
def roundUp (n k : Nat) : Nat := (n + k - 1) / k * k

/-- The size of a new segment (src/c/gc.cc:165-168) for a request that is rounded already. -/
def growth (total : Nat) : Nat := roundUp (if total > 4 * 1024 * 1024 then total else 4 * 1024 * 1024) 4096

/-- `bump_allocate` (src/c/gc.cc:151-208); `page` is where `mmap` puts a new segment, if there is need of one.  A full segment pool
(64 segments) gives a null pointer, which the caller dereferences. -/
def bumpAllocate (h : Heap) (total page : Nat) : R (Heap × Nat) :=
  let total := roundUp total 16
  let bump := roundUp h.cur.bump 16
  if bump + total > h.cur.start + h.cur.size then
    let grow := growth total
    if h.segs.length ≥ 64 then .crash
    else
      pure ({ h with
              old := h.segs
              cur := ⟨page, grow, page + total⟩
              lo := if page < h.lo then page else h.lo
              hi := if page + grow > h.hi then page + grow else h.hi }, page)
  else pure ({ h with cur := { h.cur with bump := bump + total } }, bump)

/-- First fit in the large list (src/c/gc.cc:245-259): the first block of sufficient size, and the list without it. -/
def firstFit (h : Heap) (size : Nat) : List Nat → Option (Nat × List Nat)
  | [] => none
  | b :: bs =>
    match h.hdr b with
    | some d => if size ≤ d.size then some (b, bs) else (firstFit h size bs).map fun (x, l) => (x, b :: l)
    | none => (firstFit h size bs).map fun (x, l) => (x, b :: l)

/-- The header of the allocated block and the cleared payload (src/c/gc.cc:277-286); `bsize` is the size recorded in the header. -/
def initBlock (h : Heap) (p tag bsize size : Nat) : Heap :=
  { h with
    hdr := fun a => if a = p then some ⟨false, tag, bsize⟩ else h.hdr a
    mem := fun x => if p + 16 ≤ x ∧ x < p + 16 + size then 0 else h.mem x }

/-- `gc_alloc` after the collection (src/c/gc.cc:221-288).  Returns the address of the object.  Sizes are below 2^32. -/
def allocate (h : Heap) (tag size page : Nat) : R (Heap × Nat) :=
  let h := { h with since := h.since + (16 + size) }
  let b := bucketOf size
  if b < 4 then
    match h.free b with
    | p :: ps => pure (initBlock { h with free := fun x => if x = b then ps else h.free x } p tag (classSize b) size, p + 16)
    | [] => do
      let (h, p) ← bumpAllocate h (16 + classSize b) page
      pure (initBlock h p tag (classSize b) size, p + 16)
  else
    match firstFit h size (h.free 4) with
    | some (p, ps) =>
      let bsize := match h.hdr p with | some d => d.size | none => 0
      pure (initBlock { h with free := fun x => if x = 4 then ps else h.free x } p tag bsize size, p + 16)
    | none => do
      let (h, p) ← bumpAllocate h (16 + size) page
      pure (initBlock h p tag size size, p + 16)

/-- `gc_alloc` (src/c/gc.cc:214-289): collect first when the threshold is reached. -/
def gcAlloc (n : Nat) (h : Heap) (roots : List Nat) (tag size page : Nat) : R (Heap × Nat) := do
  let h ← if h.since ≥ h.threshold then runGc n h roots else pure h
  allocate h tag size page

/-- `gc_init` (src/c/gc.cc:758-821): one segment of 8 MB at the address given by `mmap`. -/
def gcInit (page : Nat) (arr : Nat → List Nat) (mem : Nat → Nat) : Heap where
  hdr := fun _ => none
  mem := mem
  arr := arr
  old := []
  cur := ⟨page, 8 * 1024 * 1024, page⟩
  lo := page
  hi := page + 8 * 1024 * 1024
  free := fun _ => []
  since := 0
  threshold := 4 * 1024 * 1024

end Pscm.Gc
