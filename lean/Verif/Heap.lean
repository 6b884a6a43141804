import Verif.Num
/-!
# The heap of Scheme objects — model of the data layout in `src/c/pscm_types.h` and `src/c/pscm.h`

An `SCM *` is an `Obj`: the identity of the `SCM` record (`id`) together with its immutable contents (`Val`,
the fields `type` and `value`).  Records of type `SCM` are never overwritten by the modelled code; what is
mutable are the records they point to: list nodes (`SCM_List`), vectors (`SCM_Vector`) and strings
(`SCM_String`).  Those live in a `Heap`; an address is an index, allocation appends at the end, so an address
is never reused (the collector is modelled separately, in `Gc`).

Source locations (`SCM::source_loc`) are not modelled.
-/
namespace Pscm

/-- Address of a list node, vector, string, … in the heap. -/
notation "Addr" => Nat

/-- The remaining object types, compared by identity only (`SCM::Type`, src/c/pscm_types.h:18-40). -/
inductive OTy | proc | cont | func | macro | port | promise | module | smob | variable
  deriving DecidableEq, Repr

/-- `SCM::type` and `SCM::value`, src/c/pscm_types.h:17-44.  Symbols carry their (immutable) bytes. -/
inductive Val
  | none
  | nil
  | bool (b : Bool)
  | num (n : Int)
  | flo (d : Dbl)
  | ratio (n d : Int)
  | chr (c : UInt8)
  | sym (s : List UInt8)
  | str (a : Addr)
  | list (a : Addr)
  | vec (a : Addr)
  | hash (a : Addr)
  | other (t : OTy) (a : Addr)
  deriving DecidableEq, Repr

/-- An `SCM *`.  Two `SCM *` are the same pointer iff the `Obj`s are equal (a record has one contents, so equal
`id`s come with equal `v`s). -/
structure Obj where
  id : Nat
  v : Val
  deriving DecidableEq, Repr

/-- `SCM_List`, src/c/pscm_types.h:51-55.  (`data` is never null in the heaps considered.) -/
structure Node where
  data : Obj
  next : Option Addr
  dotted : Bool
  deriving DecidableEq, Repr

/-- The mutable store. `nextId` is the identity of the next `SCM` record to be allocated. -/
structure Heap where
  nodes : List Node
  vecs : List (List Obj)
  strs : List (List UInt8)
  nextId : Nat
  deriving DecidableEq, Repr

/-- The `SCM::Type` tag, src/c/pscm_types.h:18-40. -/
inductive Ty | none | nil | list | num | float | chr | bool | sym | str | hash | ratio | vector | other (t : OTy)
  deriving DecidableEq, Repr

/-- `SCM::type` of a value. -/
def Val.ty : Val → Ty
  | .none => .none
  | .nil => .nil
  | .bool _ => .bool
  | .num _ => .num
  | .flo _ => .float
  | .ratio .. => .ratio
  | .chr _ => .chr
  | .sym _ => .sym
  | .str _ => .str
  | .list _ => .list
  | .vec _ => .vector
  | .hash _ => .hash
  | .other t _ => .other t

/-- The numeric view of a value used by the numeric builtins. -/
def Val.toNumV : Val → NumV
  | .num n => .int n
  | .flo d => .flo d
  | .ratio n d => .ratio n d
  | _ => .other

/-- The singletons `scm_nil()`, `scm_bool_true()`, `scm_bool_false()`, `scm_none()`. -/
def Obj.nil : Obj := ⟨0, .nil⟩
def Obj.t : Obj := ⟨1, .bool true⟩
def Obj.f : Obj := ⟨2, .bool false⟩
def Obj.none : Obj := ⟨3, .none⟩

/-- `bool_to_scm`, src/c/pscm.h:229-231. -/
def Obj.ofBool (b : Bool) : Obj := if b then Obj.t else Obj.f

/-- A computation on the heap. A Scheme error keeps the heap as it was when the error was raised. -/
def M (α : Type) := Heap → Res α × Heap

namespace M
variable {α β : Type}

def pure (a : α) : M α := fun h => (.ok a, h)

def bind (x : M α) (f : α → M β) : M β := fun h =>
  match x h with
  | (.ok a, h') => f a h'
  | (.err e, h') => (.err e, h')
  | (.abort, h') => (.abort, h')
  | (.ub, h') => (.ub, h')
  | (.oof, h') => (.oof, h')

instance : Monad M where
  pure := M.pure
  bind := M.bind

/-- Lift an outcome that does not touch the heap. -/
def lift (r : Res α) : M α := fun h => (r, h)
/-- A computation that reads the heap only. -/
def read (f : Heap → Res α) : M α := fun h => (f h, h)
/-- Raise a Scheme error. -/
def throw (e : Err) : M α := fun h => (.err e, h)

@[simp] theorem pure_app (a : α) (h : Heap) : (Pure.pure a : M α) h = (.ok a, h) := rfl
@[simp] theorem lift_app (r : Res α) (h : Heap) : lift r h = (r, h) := rfl
@[simp] theorem read_app (f : Heap → Res α) (h : Heap) : read f h = (f h, h) := rfl
@[simp] theorem throw_app (e : Err) (h : Heap) : (throw e : M α) h = (.err e, h) := rfl

theorem bind_app (x : M α) (f : α → M β) (h : Heap) : (x >>= f) h = match x h with
  | (.ok a, h') => f a h'
  | (.err e, h') => (.err e, h')
  | (.abort, h') => (.abort, h')
  | (.ub, h') => (.ub, h')
  | (.oof, h') => (.oof, h') := rfl

theorem bind_ok {x : M α} {f : α → M β} {h h' : Heap} {a : α} (hx : x h = (.ok a, h')) :
    (x >>= f) h = f a h' := by rw [bind_app, hx]

theorem bind_oof {x : M α} {f : α → M β} {h h' : Heap} (hx : x h = (.oof, h')) :
    (x >>= f) h = (.oof, h') := by rw [bind_app, hx]

theorem bind_err {x : M α} {f : α → M β} {h h' : Heap} {e : Err} (hx : x h = (.err e, h')) :
    (x >>= f) h = (.err e, h') := by rw [bind_app, hx]

end M

/-- Read a list node. Reading an address that was never allocated is undefined behaviour. -/
def getNode (a : Addr) : M Node := fun h =>
  match h.nodes[a]? with
  | some n => (.ok n, h)
  | none => (.ub, h)

/-- Overwrite a list node. -/
def setNode (a : Addr) (n : Node) : M Unit := fun h =>
  if a < h.nodes.length then (.ok (), { h with nodes := h.nodes.set a n }) else (.ub, h)

/-- `gc_alloc(GC_LIST, …)` followed by its initialisation. -/
def allocNode (n : Node) : M Addr := fun h =>
  (.ok h.nodes.length, { h with nodes := h.nodes ++ [n] })

/-- `make_list(SCM *)`, src/c/pscm.h:151-155: a node without successor, not dotted. -/
def makeList (d : Obj) : M Addr := allocNode ⟨d, none, false⟩

/-- `gc_alloc(GC_SCM, …)` followed by its initialisation: a fresh `SCM` record. -/
def newObj (v : Val) : M Obj := fun h => (.ok ⟨h.nextId, v⟩, { h with nextId := h.nextId + 1 })

/-- `wrap(SCM_List *)`, src/c/pscm.h:379-389: null becomes the empty list, everything else a fresh record. -/
def wrapList : Option Addr → M Obj
  | none => pure Obj.nil
  | some a => newObj (.list a)

/-- `cast<SCM_List>`, src/c/pscm.h:404-411: type error unless pair or nil; nil casts to null. -/
def castList (o : Obj) : Res (Option Addr) :=
  match o.v with
  | .list a => .ok (some a)
  | .nil => .ok none
  | _ => .err .typeError

end Pscm
