import Verif.EvApi2
/-!
# What the embedding interface remembers of an error

Model of `scm_api_catch_handler` (src/c/error.cc:255-296), of `pscm_get_last_error_key`, `pscm_get_last_error_message` (src/c/pscm_api.cc:234-240)
and of the two global pointers they share (src/c/pscm_api.cc:15-16), on top of the calls of `Verif.EvApi` and `Verif.EvApi2`.

The memory of the C++ `new char[]` / `delete[]` is modelled: a block is a number, deleting a block twice is undefined behaviour, reading a deleted
block is undefined behaviour.  `new` never fails.  Simplification: the key of a throw is a symbol (`throw` refuses any other, src/c/throw.cc:505-509, and the
errors raised in C have symbol keys); `pscm_ithrow` called from C with another key is not modelled.
-/
namespace Pscm.Ev
variable {σ : Type}

/-- The blocks obtained with `new char[]` (position = address; `none` = deleted) and the two global pointers. -/
structure Host where
  bufs : List (Option String)
  key : Option Nat
  msg : Option Nat
  deriving DecidableEq, Repr

/-- Before the first call (src/c/pscm_api.cc:15-16). -/
def Host.fresh : Host := ⟨[], none, none⟩

/-- A `char *` as C reads it: up to the first NUL (`strlen`, `strcpy`, `printf "%s"`). -/
def cText (s : String) : String := String.ofList (s.toList.takeWhile (· ≠ Char.ofNat 0))

/-- `delete[] p`: nothing for the null pointer; `none` if the block was already deleted. -/
def deleteBuf (bufs : List (Option String)) : Option Nat → Option (List (Option String))
  | .none => some bufs
  | some i =>
    match bufs[i]? with
    | some (some _) => some (bufs.set i .none)
    | _ => .none

/-- The text the handler takes from the arguments of the throw (src/c/error.cc:277-293): the first if it is a string, else the second. -/
def handlerText : V → Option String
  | .pair (.str s) _ => some s
  | .pair _ d =>
    match uncons d with
    | some (.str s, _) => some s
    | _ => .none
  | _ => .none

/-- `scm_api_catch_handler` (src/c/error.cc:255-296). -/
def apiHandler (h : Host) (k : Name) (a : V) : Option Host :=
  match deleteBuf h.bufs h.msg with
  | .none => .none
  | some b1 =>
    match deleteBuf b1 h.key with
    | .none => .none
    | some b2 =>
      let b3 := b2 ++ [some (cText k)]
      match handlerText a with
      | some m => some ⟨b3 ++ [some m], some b2.length, some b3.length⟩
      | .none => some ⟨b3, some b2.length, .none⟩

/-- What the host program gets from a call: a value or the null pointer. -/
inductive Answer
  | value (v : V)
  | null
  deriving DecidableEq, Repr

/-- How a call ends for the host: the handler has run if, and only if, the evaluation failed.  (In `pscm_eval_string` the boundary of `pscm_parse` or of
`pscm_eval` catches the error first and returns null, and the outer boundary returns that: src/c/pscm_api.cc:52-63.) -/
def deliver (h : Host) : ApiRes → Option (Answer × Host)
  | .value v => some (.value v, h)
  | .null => some (.null, h)
  | .failed k a => (apiHandler h k a).map fun h' => (.null, h')

/-- A call with one boundary that the host sees: run it and deliver. -/
def hostCall (m : EM σ ApiRes) (h : Host) : EM σ (Answer × Host) := do
  let r ← m
  match deliver h r with
  | some x => pure x
  | .none => EM.stop .ub

/-- The loop of `pscm_eval_file` (src/c/pscm_api.cc:76-85): each failing expression records its error. -/
def hostEach (P : Prims σ) (n : Nat) : List V → Answer → Host → EM σ (Answer × Host)
  | [], last, h => pure (last, h)
  | x :: xs, _, h => do
    let (a, h') ← hostCall (pscmEval P n x) h
    hostEach P n xs a h'

/-- What the host can ask for. -/
inductive Ask
  | eval (ast : V)
  | parse (t : ReadRes)
  | evalString (t : ReadRes)
  | evalFile (path : String)
  deriving DecidableEq, Repr

/-- The call of the interface. -/
def hostAsk (P : Prims σ) (n : Nat) (h : Host) : Ask → EM σ (Answer × Host)
  | .eval x => hostCall (pscmEval P n x) h
  | .parse t => hostCall (pscmParse t) h
  | .evalString t => hostCall (pscmEvalString P n t) h
  | .evalFile path => do
    let s ← EM.getSt
    match P.file path s.ext with
    | .missing => pure (.null, h)
    | .malformed => evalError "Parse error"
    | .exprs xs => hostEach P n xs .null h

/-- Reading through a pointer: null has no text; a deleted block must not be read. -/
inductive Text
  | none
  | text (s : String)
  | dangling
  deriving DecidableEq, Repr

/-- What the C program reads through a pointer it got from the interface. -/
def Host.read (h : Host) : Option Nat → Text
  | .none => .none
  | some i =>
    match h.bufs[i]? with
    | some (some s) => .text (cText s)
    | _ => .dangling

/-- `pscm_get_last_error_key` (src/c/pscm_api.cc:234-236). -/
def Host.lastKey (h : Host) : Option Nat := h.key

/-- `pscm_get_last_error_message` (src/c/pscm_api.cc:238-240). -/
def Host.lastMessage (h : Host) : Option Nat := h.msg

end Pscm.Ev
