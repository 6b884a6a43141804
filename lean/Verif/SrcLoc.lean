import Verif.Reader
import Verif.Str
/-!
# Source locations (src/c/source_location.cc) and error messages (src/c/error.cc)

Objects carry an optional location: line, column and a pointer to a file name that was allocated with `strdup`.  The model keeps those
allocations, so that a use after `free` is visible.
-/
namespace Pscm.Loc
open Rd

/-- `SCM_SourceLocation` (src/c/pscm_types.h:11-15); `file` is the pointer, an index into the allocated C strings. -/
structure L where
  file : Option Nat
  line : Int
  col : Int
  deriving DecidableEq, Repr

/-- An object: its location and, for a pair, the data of its node chain (empty for any other object). -/
structure Obj where
  loc : Option L
  kids : List Nat
  deriving DecidableEq, Repr

/-- The memory: objects, and the strings allocated by `strdup` (`none`: freed). -/
structure H where
  objs : List Obj
  strs : List (Option Bytes)
  deriving DecidableEq, Repr

/-- `scm->source_loc`. -/
def locOf (h : H) (x : Nat) : Option L := h.objs[x]?.bind (·.loc)

/-- The node chain of `x`. -/
def kidsOf (h : H) (x : Nat) : List Nat := (h.objs[x]?.map (·.kids)).getD []

/-- `free(p)`: of a string that is not allocated it is undefined. -/
def freeStr (strs : List (Option Bytes)) (p : Nat) : Res (List (Option Bytes)) :=
  match strs[p]? with
  | some (some _) => .ok (strs.set p none)
  | _ => .ub

/-- `strdup(p)`: the new pointer and the memory; of a freed string it is undefined. -/
def dupStr (strs : List (Option Bytes)) (p : Nat) : Res (Nat × List (Option Bytes)) :=
  match strs[p]? with
  | some (some t) => .ok (strs.length, strs ++ [some t])
  | _ => .ub

/-- `free` of a pointer that may be null. -/
def freeOpt (strs : List (Option Bytes)) : Option Nat → Res (List (Option Bytes))
  | none => .ok strs
  | some p => freeStr strs p

/-- `p ? strdup(p) : nullptr`. -/
def dupOpt (strs : List (Option Bytes)) : Option Nat → Res (Option Nat × List (Option Bytes))
  | none => .ok (none, strs)
  | some p => do
    let r ← dupStr strs p
    pure (some r.1, r.2)

/-- Store a location. -/
def setLoc (h : H) (x : Nat) (l : L) (strs : List (Option Bytes)) : H :=
  ⟨h.objs.modify x fun o => { o with loc := some l }, strs⟩

/-- `set_source_location` (src/c/source_location.cc:7-21).  The pointer that the reader passes is its own copy of the name, never the one stored in an
object. -/
def setSourceLocation (h : H) (x : Nat) (file : Option Bytes) (line col : Int) : Res H :=
  let old := (locOf h x).bind (·.file)
  match file with
  | none => .ok (setLoc h x ⟨old, line, col⟩ h.strs)
  | some t => do
    let strs ← freeOpt h.strs old
    pure (setLoc h x ⟨some strs.length, line, col⟩ (strs ++ [some t]))

/-- `copy_source_location` (src/c/source_location.cc:24-36): the name of `dest` is freed before the name of `src` is copied. -/
def copyLoc (h : H) (dest src : Nat) : Res H :=
  match locOf h src with
  | none => .ok h
  | some l => do
    let strs ← freeOpt h.strs ((locOf h dest).bind (·.file))
    let r ← dupOpt strs l.file
    pure (setLoc h dest ⟨r.1, l.line, l.col⟩ r.2)

/-- Do `f` for each pair of corresponding elements, up to the shorter list. -/
def zipRun (f : H → Nat → Nat → Res H) : List Nat → List Nat → H → Res H
  | a :: as, b :: bs, h => do
    let h ← f h a b
    zipRun f as bs h
  | _, _, h => .ok h

/-- `copy_source_location_recursive` (src/c/source_location.cc:39-60); the fuel bounds the depth of the recursion (`oof`: cyclic data).  Null data in a
node are not modelled. -/
def copyRec : Nat → H → Nat → Nat → Res H
  | 0, _, _, _ => .oof
  | n + 1, h, dest, src =>
    match locOf h src with
    | none => .ok h
    | some _ => do
      let h ← copyLoc h dest src
      zipRun (copyRec n) (kidsOf h dest) (kidsOf h src) h

/-- The end of `expand_macro_call` (src/c/macro.cc:146-155): the expansion gets the location of the call. -/
def relocate (n : Nat) (h : H) (expanded call : Nat) : Res H := do
  let h ← copyRec n h expanded call
  if (locOf h expanded).isNone && (locOf h call).isSome then copyLoc h expanded call else pure h

/-! ## Texts -/

/-- `get_source_location_str` (src/c/source_location.cc:63-74): `"%s:%d:%d"` into `char buffer[512]`; `none` is the null pointer (a location that is
absent).  The outer result is undefined when the file name has been freed. -/
def locStr (h : H) (x : Nat) : Res (Option Bytes) :=
  match locOf h x with
  | none => .ok none
  | some l =>
    let tail := asc ":" ++ printLld l.line ++ asc ":" ++ printLld l.col
    match l.file with
    | none => .ok (some ((asc "<unknown>" ++ tail).take 511))
    | some p =>
      match h.strs[p]? with
      | some (some t) => .ok (some ((cstr t ++ tail).take 511))
      | _ => .ub

/-- A buffer of fixed size being filled: the text so far and the position. -/
structure Buf where
  text : Bytes
  pos : Nat
  deriving DecidableEq, Repr

/-- `pos += snprintf(buf + pos, sizeof(buf) - pos, …)` for the text `t` into a buffer of `cap` bytes; undefined when `pos` is beyond the buffer (the
size wraps around). -/
def put (cap : Nat) (b : Buf) (t : Bytes) : Res Buf :=
  if b.pos < cap then .ok ⟨b.text ++ t.take (cap - 1 - b.pos), b.pos + t.length⟩
  else if b.pos = cap then .ok ⟨b.text, b.pos + t.length⟩
  else .ub

/-- `put` unless there is no text. -/
def putOpt (cap : Nat) (b : Buf) : Option Bytes → Res Buf
  | none => .ok b
  | some t => put cap b t

/-- `eval_error` (src/c/error.cc:201-221) up to the construction of the message; `loc` is the location of the expression being evaluated, `msg` the
text of the formatted message. -/
def evalErrorText (loc : Option Bytes) (msg : Bytes) : Res Bytes := do
  let message := msg.take 1023
  let b ← putOpt 2048 ⟨[], 0⟩ (loc.map (· ++ asc ": "))
  let b ← put 2048 b message
  pure b.text

/-- `get_type_name` (src/c/error.cc:141-164), by the numeric value of the type tag in the order of src/c/pscm_types.h. -/
def typeNames : List String :=
  ["none", "nil", "pair/list", "procedure", "continuation", "function", "number", "float", "character", "boolean", "symbol", "string", "macro",
   "hash-table", "ratio", "vector", "port", "promise", "module"]

def typeName (tag : Nat) : Bytes := asc (typeNames.getD tag "unknown")

/-- The name of the actual type (src/c/error.cc:184-189). -/
def gotText : Option Nat → Bytes
  | some t => typeName t
  | none => asc "null"

/-- `type_error` (src/c/error.cc:167-199): `dataLoc` is the location of the offending object, `ctx` that of the expression being evaluated, `tag` the type
of the object (`none` for the null pointer), `same` whether the object is that expression. -/
def typeErrorText (dataLoc ctx : Option Bytes) (expected : Bytes) (tag : Option Nat) (same : Bool) : Res Bytes := do
  let loc := dataLoc <|> ctx
  let b ← putOpt 1024 ⟨[], 0⟩ (loc.map (· ++ asc ": "))
  let b ← put 1024 b (asc "Type error: expected " ++ expected ++ asc ", but got ")
  let b ← put 1024 b (gotText tag)
  let b ← if same then pure b else putOpt 1024 b (ctx.map (asc "\n  While evaluating at " ++ ·))
  evalErrorText ctx b.text

/-! ## The call stack -/

/-- `expr_to_string` (src/c/error.cc:16-52) with `max_len` 200: the bytes in the buffer up to the NUL, for the printed text `t` (without NUL bytes), and the
size of the buffer. -/
def exprToString (t : Bytes) : Bytes × Nat :=
  let size := if t.length < 200 then t.length + 1 else 205
  (t.take 200 ++ (if 200 < t.length then asc "..." else []), size)

/-- One `EvalStackFrame`. -/
structure Frame where
  loc : Bytes
  expr : Bytes
  deriving DecidableEq, Repr

/-- `push_eval_stack` (src/c/error.cc:55-92): nothing is pushed at depth 100, nor for an expression without location. -/
def push (st : List Frame) (loc : Option Bytes) (expr : Bytes) : List Frame :=
  if 100 ≤ st.length then st
  else match loc with
    | none => st
    | some l => ⟨l, (exprToString expr).1⟩ :: st

/-- `pop_eval_stack` (src/c/error.cc:95-108). -/
def pop (st : List Frame) : List Frame := st.tail

/-- What an evaluation does with the call stack: an expression (with location and text) evaluates its parts in order and returns; one that raises an
error after its parts; one (`catch`) that returns also when a part raises; and `look`: an error report, which prints the stack. -/
inductive T
  | call (loc : Option Bytes) (expr : Bytes) (parts : List T)
  | raises (loc : Option Bytes) (expr : Bytes) (parts : List T)
  | guards (loc : Option Bytes) (expr : Bytes) (parts : List T)
  | look

/-- Result of running: whether it returned, the stack, and the stacks reported so far. -/
structure S where
  st : List Frame
  log : List (List Frame)

mutual
/-- `eval_with_env` as far as the call stack is concerned (src/c/eval.cc:257-275: push on entry, pop on return; a raised error leaves by
`longjmp`, so that nothing is popped). -/
def run : T → S → Bool × S
  | .call loc e ps, s =>
    match runAll ps { s with st := push s.st loc e } with
    | (true, s') => (true, { s' with st := pop s'.st })
    | (false, s') => (false, s')
  | .raises loc e ps, s => (false, (runAll ps { s with st := push s.st loc e }).2)
  | .guards loc e ps, s =>
    let r := runAll ps { s with st := push s.st loc e }
    (true, { r.2 with st := pop r.2.st })
  | .look, s => (true, { s with log := s.log ++ [s.st] })

/-- The parts one after another, until one raises. -/
def runAll : List T → S → Bool × S
  | [], s => (true, s)
  | t :: ts, s =>
    match run t s with
    | (true, s') => runAll ts s'
    | (false, s') => (false, s')
end

/-- `print_eval_stack` (src/c/error.cc:111-138): the frames shown, and the number in "... (n more frames)". -/
def shown (st : List Frame) : List Frame × Option Nat :=
  (st.take 20, if 20 < st.length then some (st.length - 20) else none)

end Pscm.Loc
