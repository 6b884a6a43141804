/-!
# Re-entering a call whose operands are being evaluated

When a continuation captured during the evaluation of an operand is called again, the C stack is as it was at the capture (C127), so the *locals* of the function that evaluates the
operands have their old values; what these locals point to lives in the heap and is shared with all other returns into the same call.  This file models the three places where that matters:
`eval_list_with_env` (operands of builtins), `apply_procedure` (operands of closures) and `eval_map`.

A *point* is a copy of the locals made while an operand (or an application of the procedure of `map`) is being evaluated.  Point 0 is the first one; every value delivered at a point makes
one new point.  Any point may have been captured by call/cc, so a history is any sequence of deliveries.  The evaluation of the operands themselves is not modelled (any code that does not
get hold of the nodes under construction, which no Scheme variable refers to).
-/

namespace Pscm.Re

variable {V : Type}

/-- A list node `SCM_List` in the heap (src/c/pscm_types.h: `data`, `next`). -/
structure Node (V : Type) where
  data : V
  next : Option Nat

/-- `SCM_List *it`: the local `dummy`, or a node. -/
inductive Ptr where
  | dummy
  | node (n : Nat)

/-- The list from a node on, as the called function reads it; `fuel` bounds the number of nodes. -/
def follow (heap : List (Node V)) : Nat → Option Nat → List V
  | 0, _ => []
  | _ + 1, none => []
  | f + 1, some n =>
    match heap[n]? with
    | none => []
    | some nd => nd.data :: follow heap f nd.next

/-- `heap[n].next = some m`. -/
def setNext (heap : List (Node V)) (n m : Nat) : List (Node V) :=
  match heap[n]? with
  | none => heap
  | some nd => heap.set n { nd with next := some m }

/-! ## Operands of a builtin -/

/-- The locals of `eval_list_with_env` (src/c/eval.cc:20-31): `dummy.next`, `it`, and the number of operands left (`l`), the pending one included. -/
structure Frame where
  dummy : Option Nat
  it : Ptr
  left : Nat

/-- The state of one call: the nodes made so far and all the points. -/
structure St (V : Type) where
  heap : List (Node V)
  points : List Frame

/-- What the delivery of a value leads to: the next operand is evaluated (at the new point), the function is called with a list of arguments, or nothing (there is no such point). -/
inductive Out (V : Type) where
  | more
  | call (args : List V)
  | invalid

/-- The loop of `eval_list_with_env` before the first operand; `n` operands. -/
def start (n : Nat) : St V := ⟨[], [⟨none, .dummy, n⟩]⟩

/-- The loop body of `eval_list_with_env` after `eval_with_env` returned (src/c/eval.cc:24-29) with the locals of point `p`, up to the next operand, or the call with `dummy.next`
(src/c/eval.cc:30, 666-678). -/
def deliver (s : St V) (p : Nat) (v : V) : Out V × St V :=
  match s.points[p]? with
  | none => (.invalid, s)
  | some f =>
    if f.left = 0 then (.invalid, s) else
    let n := s.heap.length
    let heap := s.heap ++ [⟨v, none⟩]
    let d := match f.it with | .dummy => some n | .node _ => f.dummy
    let heap := match f.it with | .dummy => heap | .node m => setNext heap m n
    let s' : St V := ⟨heap, s.points ++ [⟨d, .node n, f.left - 1⟩]⟩
    if f.left = 1 then (.call (follow heap heap.length d), s') else (.more, s')

/-- A history of deliveries. -/
def delivers (s : St V) : List (Nat × V) → St V
  | [] => s
  | (p, v) :: h => delivers (deliver s p v).2 h

/-! ## Operands of a closure -/

/-- The state of one call of a closure with `n` parameters (src/c/procedure.cc:99-264): `apply_procedure` makes the environment *before* it evaluates the operands, so there is one environment
for all points; a point is the number of parameters already bound (`current_param`, `args_iter`).  Parameters are counted; rest parameters, and parameter lists that name a variable
twice, are not modelled. -/
structure CSt (V : Type) where
  env : List (Option V)
  points : List Nat

/-- `make_env` (src/c/procedure.cc:100). -/
def cstart (n : Nat) : CSt V := ⟨List.replicate n none, [0]⟩

/-- What the delivery of an operand leads to: the next operand, the body evaluated with these values of the parameters, or nothing. -/
inductive COut (V : Type) where
  | more
  | body (vars : List (Option V))
  | invalid

/-- `scm_env_insert (proc_env, arg_sym, arg_val)` and the next turn of the loop (src/c/procedure.cc:163-232). -/
def cdeliver (s : CSt V) (p : Nat) (v : V) : COut V × CSt V :=
  match s.points[p]? with
  | none => (.invalid, s)
  | some i =>
    if i < s.env.length then
      let env := s.env.set i (some v)
      let s' : CSt V := ⟨env, s.points ++ [i + 1]⟩
      if i + 1 = s.env.length then (.body env, s') else (.more, s')
    else (.invalid, s)

/-- Deliveries, and assignments to a parameter by code that runs in the environment (`set!` in the body or in a closure made there: src/c/environment.cc:30-35). -/
inductive CEv (V : Type) where
  | deliver (p : Nat) (v : V)
  | assign (i : Nat) (v : V)

/-- One event. -/
def cstep (s : CSt V) : CEv V → CSt V
  | .deliver p v => (cdeliver s p v).2
  | .assign i v => { s with env := s.env.set i (some v) }

/-- A history of events. -/
def csteps (s : CSt V) : List (CEv V) → CSt V
  | [] => s
  | e :: h => csteps (cstep s e) h

/-! ## map -/

/-- The locals of `eval_map` that a continuation restores: `dummy.next` and `tail` (src/c/map.cc:71-72).  `list_ptrs` is a pointer to an array in the heap. -/
structure MFrame where
  dummy : Option Nat
  tail : Ptr

/-- The state of one call of `map`: the array `list_ptrs` (what is left of each list; `none` after `delete[]`), the result nodes, the points. -/
structure MSt (V : Type) where
  ptrs : Option (List (List V))
  heap : List (Node V)
  points : List MFrame

/-- What a step leads to: the procedure is applied to one element of each list, map returns a list, undefined behaviour (the freed array is read), or nothing. -/
inductive MOut (V : Type) where
  | app (args : List V)
  | done (result : List V)
  | ub
  | invalid

/-- The test of `all_non_empty` and the collection of the elements (src/c/map.cc:75-97, 116-123): the elements and the advanced pointers. -/
def takeRow : List (List V) → Option (List V × List (List V))
  | [] => some ([], [])
  | [] :: _ => none
  | (x :: xs) :: ls =>
    match takeRow ls with
    | none => none
    | some (row, rest) => some (x :: row, xs :: rest)

/-- The head of the loop with the locals `f`: the next application, or `delete[] list_ptrs` and the result (src/c/map.cc:84-97, 116-131). -/
def mhead (s : MSt V) (ptrs : List (List V)) (f : MFrame) : MOut V × MSt V :=
  match takeRow ptrs with
  | some (row, rest) => (.app row, { s with ptrs := some rest, points := s.points ++ [f] })
  | none => (.done (follow s.heap s.heap.length f.dummy), { s with ptrs := none })

/-- `eval_map` up to the first application (src/c/map.cc:56-97); at least one list. -/
def mstart (ls : List (List V)) : MOut V × MSt V := mhead ⟨some ls, [], []⟩ ls ⟨none, .dummy⟩

/-- The application made at point `p` returns `r` (src/c/map.cc:111-123). -/
def mdeliver (s : MSt V) (p : Nat) (r : V) : MOut V × MSt V :=
  match s.points[p]? with
  | none => (.invalid, s)
  | some f =>
    match s.ptrs with
    | none => (.ub, s)
    | some ptrs =>
      let n := s.heap.length
      let heap := s.heap ++ [⟨r, none⟩]
      let d := match f.tail with | .dummy => some n | .node _ => f.dummy
      let heap := match f.tail with | .dummy => heap | .node m => setNext heap m n
      mhead { s with heap := heap } ptrs ⟨d, .node n⟩

/-- A history of returns. -/
def mdelivers (s : MSt V) : List (Nat × V) → MSt V
  | [] => s
  | (p, r) :: h => mdelivers (mdeliver s p r).2 h

end Pscm.Re
