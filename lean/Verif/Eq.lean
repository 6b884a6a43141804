import Verif.Heap
/-!
# Equality — model of `src/c/eq.cc`

`F` (floating-point division) is only needed to convert a ratio to a double.
-/
namespace Pscm

/-- The C string seen by `strcmp`: the bytes before the first NUL. -/
def cstr (s : List UInt8) : List UInt8 := s.takeWhile (· != 0)

/-- `strncmp(a, b, n) == 0` on the bytes of two buffers that are at least `n` long (or NUL-terminated before):
equality of the first `n` bytes, stopping at a common NUL. -/
def strncmpEq : Nat → List UInt8 → List UInt8 → Bool
  | 0, _, _ => true
  | _ + 1, [], [] => true
  | _ + 1, [], b :: _ => b == 0
  | _ + 1, a :: _, [] => a == 0
  | n + 1, a :: as, b :: bs => if a != b then false else if a == 0 then true else strncmpEq n as bs

section
variable (F : FArith)

/-- `_number_eq`, src/c/number.cc:518-526 (and `BinaryOperator`, 86-118: both operands must be NUM, otherwise
the assertion fails). -/
def numberEq (a b : Val) : Res Bool :=
  if needsFloat a.toNumV b.toNumV then
    .ok ((scmToDouble F a.toNumV).eq (scmToDouble F b.toNumV))
  else binInt (fun x y => .ok (decide (x = y))) a.toNumV b.toNumV

/-- `_sym_eq`, src/c/eq.cc:9-34. Reading a string that was never allocated is undefined behaviour. -/
def symEq (h : Heap) (a b : Val) : Res Bool :=
  match a, b with
  | .sym s, .sym t => .ok (decide (cstr s = cstr t))
  | .str x, .str y =>
    match h.strs[x]?, h.strs[y]? with
    | some s, some t => .ok (if s.length ≠ t.length then false else strncmpEq s.length s t)
    | _, _ => .ub
  | .sym _, .str _ => .ok false
  | .str _, .sym _ => .ok false
  | _, _ => .abort

/-- NUM against FLOAT in either order (the "special case" of src/c/eq.cc:155-156, 221-222, 275-276, 326-327). -/
def numFloatMix : Ty → Ty → Bool
  | .num, .float => true
  | .float, .num => true
  | _, _ => false

/-- `scm_c_is_eq`, src/c/eq.cc:212-262. -/
def eqP (h : Heap) (a b : Obj) : Res Bool :=
  if a = b then .ok true
  else if a.v.ty ≠ b.v.ty then
    if numFloatMix a.v.ty b.v.ty then numberEq F a.v b.v else .ok false
  else match a.v, b.v with
    | .none, _ => .ok true
    | .nil, _ => .ok true
    | .num _, _ => numberEq F a.v b.v
    | .flo _, _ => numberEq F a.v b.v
    | .ratio .., _ => numberEq F a.v b.v
    | .chr c, .chr d => .ok (decide (c = d))
    | .bool c, .bool d => .ok (decide (c = d))
    | .sym _, _ => symEq h a.v b.v
    | .str _, _ => symEq h a.v b.v
    | _, _ => .ok false

/-- `scm_c_is_eqv`, src/c/eq.cc:266-316 (the text repeats `scm_c_is_eq`). -/
def eqvP (h : Heap) (a b : Obj) : Res Bool :=
  if a = b then .ok true
  else if a.v.ty ≠ b.v.ty then
    if numFloatMix a.v.ty b.v.ty then numberEq F a.v b.v else .ok false
  else match a.v, b.v with
    | .none, _ => .ok true
    | .nil, _ => .ok true
    | .num _, _ => numberEq F a.v b.v
    | .flo _, _ => numberEq F a.v b.v
    | .ratio .., _ => numberEq F a.v b.v
    | .chr c, .chr d => .ok (decide (c = d))
    | .bool c, .bool d => .ok (decide (c = d))
    | .sym _, _ => symEq h a.v b.v
    | .str _, _ => symEq h a.v b.v
    | _, _ => .ok false

/-- Read a node without changing the heap. -/
def node? (h : Heap) (a : Addr) : Res Node :=
  match h.nodes[a]? with | some n => .ok n | none => .ub

/-- Is there a successor node marked as the cdr of a dotted pair? (`l->next && l->next->is_dotted`,
src/c/eq.cc:52-53): `some` of that node's data if so. -/
def dottedNext (h : Heap) (n : Node) : Res (Option Obj) :=
  match n.next with
  | none => .ok none
  | some b => do
    let m ← node? h b
    pure (if m.dotted then some m.data else none)

/-- `l_dotted ? l->next->data : (l->next ? wrap(l->next) : scm_nil())`, src/c/eq.cc:65-66.  The fresh `SCM` record
made by `wrap` is given the identity `h.nextId`, which no existing record has. -/
def cdrForEqual (h : Heap) (n : Node) (dot : Option Obj) : Obj :=
  match dot with
  | some o => o
  | none => match n.next with
    | some b => ⟨h.nextId, .list b⟩
    | none => Obj.nil

mutual
/-- `_equal_recursive`, src/c/eq.cc:319-386.  Smobs: modelled for types without an `equalp` callback
(pointer equality). -/
def equalRec (h : Heap) (fuel : Nat) (a b : Obj) : Res Bool :=
  match fuel with
  | 0 => .oof
  | fuel + 1 =>
  if a = b then .ok true
  else if a.v.ty ≠ b.v.ty then
    if numFloatMix a.v.ty b.v.ty then numberEq F a.v b.v else .ok false
  else match a.v, b.v with
    | .none, _ => .ok true
    | .nil, _ => .ok true
    | .list x, .list y => listEqual h fuel x y
    | .vec x, .vec y =>
      match h.vecs[x]?, h.vecs[y]? with
      | some s, some t => if s.length ≠ t.length then .ok false else vectorEqual h fuel s t
      | _, _ => .ub
    | .num _, _ => numberEq F a.v b.v
    | .flo _, _ => numberEq F a.v b.v
    | .ratio .., _ => numberEq F a.v b.v
    | .chr c, .chr d => .ok (decide (c = d))
    | .bool c, .bool d => .ok (decide (c = d))
    | .sym _, _ => symEq h a.v b.v
    | .str _, _ => symEq h a.v b.v
    | _, _ => .ok false

/-- `_list_equal`, src/c/eq.cc:41-92, from two non-null nodes (one loop iteration per fuel unit). -/
def listEqual (h : Heap) (fuel : Nat) (x y : Addr) : Res Bool :=
  match fuel with
  | 0 => .oof
  | fuel + 1 => do
    let n1 ← node? h x
    let n2 ← node? h y
    let e ← equalRec h fuel n1.data n2.data
    if !e then pure false
    else do
      let d1 ← dottedNext h n1
      let d2 ← dottedNext h n2
      match d1, d2 with
      | some o1, some o2 => equalRec h fuel o1 o2
      | none, none =>
        match n1.next, n2.next with
        | none, none => pure true
        | some b1, some b2 => listEqual h fuel b1 b2
        | _, _ => pure false
      | _, _ =>
        let c1 := cdrForEqual h n1 d1
        let c2 := cdrForEqual h n2 d2
        match c1.v, c2.v with
        | .list b1, .list b2 => listEqual h fuel b1 b2
        | _, _ => equalRec h fuel c1 c2

/-- The loop of `_vector_equal`, src/c/eq.cc:121-128, on two vectors of equal length. -/
def vectorEqual (h : Heap) (fuel : Nat) : List Obj → List Obj → Res Bool
  | a :: as, b :: bs =>
    match fuel with
    | 0 => .oof
    | fuel + 1 => do
      let e ← equalRec h fuel a b
      if !e then pure false else vectorEqual h fuel as bs
  | _, _ => .ok true
end

/-- `scm_c_is_equal` (`equal?`), src/c/eq.cc:389-391. -/
def equalP (h : Heap) (fuel : Nat) (a b : Obj) : Res Bool := equalRec F h fuel a b

mutual
/-- `_eq`, src/c/eq.cc:151-208: the comparison behind `member`, `assoc`, `assv`, `case` and the `equal?` hash
tables. Types not listed in the `switch` raise a Scheme error. -/
def legacyEq (h : Heap) (fuel : Nat) (a b : Obj) : Res Bool :=
  match fuel with
  | 0 => .oof
  | fuel + 1 =>
  if numFloatMix a.v.ty b.v.ty then numberEq F a.v b.v
  else if a.v.ty ≠ b.v.ty then .ok false
  else match a.v, b.v with
    | .none, _ => .ok true
    | .nil, _ => .ok true
    | .list x, .list y => legacyListEq h fuel (some x) (some y)
    | .other .proc _, _ => .ok (decide (a = b))
    | .other .cont _, _ => .ok (decide (a = b))
    | .other .func _, _ => .ok (decide (a = b))
    | .num _, _ => numberEq F a.v b.v
    | .flo _, _ => numberEq F a.v b.v
    | .chr c, .chr d => .ok (decide (c = d))
    | .bool c, .bool d => .ok (decide (c = d))
    | .sym _, _ => symEq h a.v b.v
    | .str _, _ => symEq h a.v b.v
    | .vec x, .vec y =>
      match h.vecs[x]?, h.vecs[y]? with
      | some s, some t => if s.length ≠ t.length then .ok false else legacyVectorEq h fuel s t
      | _, _ => .ub
    | .other .macro _, _ => .ok (decide (a = b))
    | .hash _, _ => .ok (decide (a = b))
    | .ratio .., _ => numberEq F a.v b.v
    | _, _ => .err .evalError

/-- `_list_eq`, src/c/eq.cc:95-109: walks the raw nodes and ignores the dotted flags. -/
def legacyListEq (h : Heap) (fuel : Nat) (x y : Option Addr) : Res Bool :=
  match fuel with
  | 0 => .oof
  | fuel + 1 =>
    match x, y with
    | some x, some y => do
      let n1 ← node? h x
      let n2 ← node? h y
      let e ← legacyEq h fuel n1.data n2.data
      if !e then pure false else legacyListEq h fuel n1.next n2.next
    | none, none => .ok true
    | _, _ => .ok false

/-- The loop of `_vector_eq`, src/c/eq.cc:141-148. -/
def legacyVectorEq (h : Heap) (fuel : Nat) : List Obj → List Obj → Res Bool
  | a :: as, b :: bs =>
    match fuel with
    | 0 => .oof
    | fuel + 1 => do
      let e ← legacyEq h fuel a b
      if !e then pure false else legacyVectorEq h fuel as bs
  | _, _ => .ok true
end

/-- `_eqv`, src/c/list.cc:454-477: the comparison of `memv`. Symbols, strings and ratios fall through to pointer
equality. -/
def memvEqv (a b : Obj) : Res Bool :=
  if a = b then .ok true
  else if numFloatMix a.v.ty b.v.ty then numberEq F a.v b.v
  else if a.v.ty ≠ b.v.ty then .ok false
  else match a.v, b.v with
    | .num _, _ => numberEq F a.v b.v
    | .flo _, _ => numberEq F a.v b.v
    | .chr c, .chr d => .ok (decide (c = d))
    | .bool c, .bool d => .ok (decide (c = d))
    | _, _ => .ok (decide (a = b))

/-- `is_eq_pointer`, src/c/alist.cc:9-36: the comparison of `assq`/`assq-set!` (and, for symbols,
`scm_cmp_eq` of src/c/hash_table.cc:98-112). Symbols are compared by length and `memcmp`. -/
def assqEq (a b : Obj) : Bool :=
  if a = b then true
  else match a.v, b.v with
    | .sym s, .sym t => decide (s = t)
    | .str x, .str y => decide (x = y)
    | .num x, .num y => decide (x = y)
    | _, _ => false

end
end Pscm
