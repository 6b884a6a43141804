import Verif.Gc
/-!
# What the collector is to do: specification
-/
namespace Pscm.Gc

/-- The SCM types whose value is a pointer to another object: all but NONE, NIL, NUM, FLOAT, CHAR, BOOL. -/
def PointerType (t : Nat) : Prop := t ≤ 20 ∧ t ≠ 0 ∧ t ≠ 1 ∧ t ≠ 6 ∧ t ≠ 7 ∧ t ≠ 8 ∧ t ≠ 9

/-- Offsets of the pointers to other objects in the structures of src/c/pscm_types.h. -/
def pointerFields (tag : Nat) : List Nat :=
  if tag = LISTt then [0, 8]                                    -- data, next
  else if tag = PROCt then [0, 8, 16, 24]                       -- name, args, body, env
  else if tag = FUNCt then [0, 24]                              -- name, generic
  else if tag = CONTt then [224, 232, 240]                      -- arg, wind_chain, saved_module
  else if tag = MODULEt then [0, 8, 16, 24, 32, 40, 48, 56, 64, 72]
  else if tag = PORTt then [48]                                 -- soft_procedures
  else if tag = ENVt then [16, 24]                              -- parent, module
  else if tag = PROMISEt then [0, 8]                            -- thunk, value
  else if tag = MACROt then [0, 8, 16]                          -- name, transformer, env
  else if tag = VARIABLEt then [0]                              -- value
  else []

/-- The block at `a` holds the pointer `w` in a typed field, or in the array or entry chain it owns. -/
inductive Field (h : Heap) (a : Nat) (w : Nat) : Prop
  | scm {d} : h.hdr a = some d → d.tag = SCMt → PointerType (h.mem (a + 16)) → h.mem (a + 16 + 8) = w → Field h a w
  | cell {d off} : h.hdr a = some d → off ∈ pointerFields d.tag → h.mem (a + 16 + off) = w → Field h a w
  | element {d} : h.hdr a = some d → (d.tag = VECTORt ∨ d.tag = HASHt) →
      w ∈ (h.arr (h.mem (a + 16))).take (h.mem (a + 16 + 8)) → Field h a w
  | entry {d} : h.hdr a = some d → d.tag = ENVt → h.mem (a + 16 + 8) ≠ 0 → w ∈ h.arr (h.mem (a + 16 + 8)) → Field h a w

/-- `w` is the address of the object in the block `a`. -/
def PtrTo (h : Heap) (w a : Nat) : Prop := w = a + 16 ∧ ∃ d, h.hdr a = some d

/-- Reachable from the root words. -/
inductive Reach (h : Heap) (roots : List Nat) : Nat → Prop
  | root {w a} : w ∈ roots → PtrTo h w a → Reach h roots a
  | step {a b w} : Reach h roots a → Field h a w → PtrTo h w b → Reach h roots b

def Marked (h : Heap) (a : Nat) : Prop := ∃ d, h.hdr a = some d ∧ d.mark = true

/-- The address range from `p` to `e` is covered by adjacent blocks, at the addresses `l`. -/
inductive Tiled (hdr : Nat → Option Hdr) : Nat → Nat → List Nat → Prop
  | nil {p} : Tiled hdr p p []
  | cons {p e l d} : hdr p = some d → Tiled hdr (p + (16 + d.size)) e l → Tiled hdr p e (p :: l)

/-- The payload size every object of this type needs (offset of its last pointer field that the collector touches, plus 8). -/
def need (tag : Nat) : Nat :=
  if tag = SCMt then 24 else if tag = LISTt then 24 else if tag = PROCt then 32 else if tag = FUNCt then 32
  else if tag = CONTt then 256 else if tag = MODULEt then 80 else if tag = PORTt then 64 else if tag = ENVt then 32
  else if tag = PROMISEt then 24 else if tag = MACROt then 24 else if tag = VARIABLEt then 8 else if tag = SMOBt then 40 else 16

/-- Payload sizes: one of the four classes, or large and a multiple of 16. -/
def OkSize (n : Nat) : Prop := n = 16 ∨ n = 32 ∨ n = 64 ∨ n = 128 ∨ 128 < n ∧ n % 16 = 0

/-- The memory is laid out as the collector assumes. -/
structure Layout (h : Heap) : Prop where
  seg : ∀ s ∈ h.segs, s.start % 16 = 0 ∧ s.bump % 16 = 0 ∧ s.bump ≤ s.start + s.size ∧ 16 ≤ s.start ∧ h.lo ≤ s.start ∧
    s.start + s.size ≤ h.hi
  disj : h.segs.Pairwise fun s t => s.start + s.size ≤ t.start ∨ t.start + t.size ≤ s.start
  tiled : ∀ s ∈ h.segs, ∃ l, Tiled h.hdr s.start s.bump l
  only : ∀ a d, h.hdr a = some d → ∃ s ∈ h.segs, ∃ l, Tiled h.hdr s.start s.bump l ∧ a ∈ l
  size : ∀ a d, h.hdr a = some d → OkSize d.size ∧ need d.tag ≤ d.size

/-- The block is in use. -/
def Live (h : Heap) (a : Nat) : Prop := (∃ d, h.hdr a = some d) ∧ ∀ k, a ∉ h.free k

/-- The state between two calls of the collector: no marks, and free lists that hold blocks of their class, each once. -/
structure WF (h : Heap) : Prop where
  layout : Layout h
  clean : ∀ a, ¬ Marked h a
  free : ∀ k, ∀ a ∈ h.free k, ∃ d, h.hdr a = some d ∧ bucketOf d.size = k
  nodup : ∀ k, (h.free k).Nodup

/-- The region that `mmap` may return at `page` for a new segment of the given size. -/
def FreshAt (h : Heap) (page size : Nat) : Prop :=
  page % 16 = 0 ∧ 16 ≤ page ∧ ∀ s ∈ h.segs, page + size ≤ s.start ∨ s.start + s.size ≤ page

/-- A word that may be looked up as an object address: outside the heap, unaligned, or just after 16 bytes of collector memory. -/
def SafeWord (h : Heap) (w : Nat) : Prop := w < h.lo ∨ h.hi < w ∨ w % 16 ≠ 0 ∨ mapped h (w - 16) = true

/-- The arrays of a vector or hash table are there. -/
def ArrOk (h : Heap) (a : Nat) : Prop :=
  ∀ d, h.hdr a = some d → d.tag = VECTORt ∨ d.tag = HASHt → h.mem (a + 16 + 8) ≠ 0 → h.mem (a + 16) ≠ 0

end Pscm.Gc
