import Verif.Reader
/-!
# Uncaught throws and lazy catches (src/c/throw.cc)

`catch` and `throw` themselves are part of the evaluator model (`Verif.EvStep`).  Here: the message of an uncaught throw with its fixed buffer, and the
C interface for lazy catches.
-/
namespace Pscm.Thr
open Rd

/-! ## The message of an uncaught throw -/

/-- The buffer `char msg[1024]` and the position; `text` is the C string in the buffer. -/
structure Buf where
  text : Bytes := []
  pos : Nat := 0
  deriving DecidableEq, Repr

/-- `pos += snprintf(msg + pos, sizeof(msg) - pos, …)` for the text `t` (src/c/throw.cc:229-259).  `snprintf` returns the length of the whole text; it
stores at most `sizeof(msg) - pos - 1` bytes and a NUL.  Beyond the buffer the size argument wraps around to a huge number and the NUL is
written outside: undefined behaviour (`none`).  Texts are below 2^31 bytes. -/
def put (b : Option Buf) (t : Bytes) : Option Buf :=
  match b with
  | none => none
  | some b => if b.pos ≤ 1024 then some ⟨b.text ++ t.take (1023 - b.pos), b.pos + t.length⟩ else none

/-- The key: a symbol or something else. -/
inductive Key
  | sym (name : Bytes)
  | other
  deriving DecidableEq, Repr

/-- The arguments: the null pointer; a pair whose first element is a string; anything else. -/
inductive Args
  | null
  | string (s : Bytes)
  | other
  deriving DecidableEq, Repr

/-- The text for the key (src/c/throw.cc:231-237). -/
def keyText : Key → Bytes
  | .sym n => 39 :: cstr n
  | .other => asc "<non-symbol>"

/-- The text for the arguments (src/c/throw.cc:242-257). -/
def argText : Args → Bytes
  | .null => asc "()"
  | .string s => cstr s
  | .other => asc "<args>"

/-- `handler_message` up to the writing (src/c/throw.cc:221-261): the text written to the error port; `none`: undefined behaviour. -/
def message (prog : Option Bytes) (k : Key) (a : Args) : Option Bytes :=
  (put (put (put (put (put (some {}) (cstr (prog.getD (asc "pscm")) ++ asc ": uncaught throw to ")) (keyText k)) (asc ": ")) (argText a)) [10]).map (·.text)

/-- How a process ends. -/
inductive End
  | exit (status : Int) (message : Bytes)
  | ub
  deriving DecidableEq, Repr

/-- `scm_uncaught_throw` (src/c/throw.cc:304-314): message, then `exit(1)`. -/
def uncaught (k : Key) (a : Args) : End :=
  match message none k a with
  | some m => .exit 1 m
  | none => .ub

/-! ## Lazy catches -/

/-- The data found in the wind chain: symbols (`#t` as the symbol with that name), numbers, procedures, lists. -/
inductive T
  | sym (s : String)
  | num (n : Nat)
  | proc
  | lst (l : List T)

def T.isPair : T → Bool
  | .lst (_ :: _) => true
  | _ => false

/-- `tags_match` (src/c/throw.cc:41-56) for the tags used here. -/
def tagsMatch : T → String → Bool
  | .sym t, k => t == "#t" || t == k
  | _, _ => false

/-- The entry that `scm_c_with_throw_handler` puts into the wind chain (src/c/throw.cc:376-389): `wind_entry->next` is the node of `marker_pair` itself,
so that the entry is the list of the tag, the marker and the index. -/
def lazyEntry (tag : String) (index : Nat) : T := .lst [.sym tag, .sym "__lazy_catch__", .num index]

/-- The entry of a `dynamic-wind` (src/c/dynwind.cc): the two guards. -/
def guardEntry : T := .lst [.proc, .proc]

/-- The test of `scm_throw` for one entry of the wind chain (src/c/throw.cc:141-172): the index of the lazy handler to call. -/
def lazyIndex (key : String) : T → Option Nat
  | .lst (tag :: d :: _) =>
    if tagsMatch tag key then
      match d with
      | .lst (.sym m :: .lst (.num i :: _) :: _) => if m == "__lazy_catch__" ∧ i < 100 then some i else none
      | _ => none
    else none
  | _ => none

/-- The scan of the wind chain (src/c/throw.cc:136-173). -/
def lazyScan (key : String) : List T → Option Nat
  | [] => none
  | e :: t => (lazyIndex key e).orElse fun _ => lazyScan key t

/-- Programs of the C interface: return a value, throw, run one after the other, `scm_c_catch` with the tag `#t` and a handler that returns the value given,
`scm_internal_lazy_catch`, `dynamic-wind`. -/
inductive Prog
  | ret (v : Int)
  | throw (key : String)
  | seq (p q : Prog)
  | catchAll (p : Prog) (v : Int)
  | lazy (tag : String) (p : Prog)
  | wind (p : Prog)

/-- The wind chain, the number of slots in use (`lazy_catch_storage_top`), and the calls of lazy handlers so far. -/
structure St where
  chain : List T := []
  top : Nat := 0
  calls : List Nat := []

inductive R
  | val (v : Int)
  | thrown (key : String)
  /-- call of the null pointer -/
  | ub
  deriving DecidableEq, Repr

/-- The run of a program.  `scm_throw` (src/c/throw.cc:134-190) looks for a lazy handler in the wind chain first: the handler is taken from a static array of
`scm_throw` of its own, which is never filled, so that the call would be a call of the null pointer.
`scm_c_with_throw_handler` (src/c/throw.cc:341-406); `longjmp` leaves the wind chain and the slots as they are.
`eval_error` throws the key `error`.  Each throw reaches the innermost `catchAll`. -/
def run : Prog → St → R × St
  | .ret v, s => (.val v, s)
  | .throw k, s =>
    match lazyScan k s.chain with
    | some i => (.ub, { s with calls := i :: s.calls })
    | none => (.thrown k, s)
  | .seq p q, s =>
    match run p s with
    | (.val _, s') => run q s'
    | r => r
  | .catchAll p v, s =>
    match run p s with
    | (.thrown _, s') => (.val v, s')
    | r => r
  | .lazy tag p, s =>
    if s.top ≥ 100 then
      match lazyScan "error" s.chain with
      | some i => (.ub, { s with calls := i :: s.calls })
      | none => (.thrown "error", s)
    else
      match run p { s with chain := lazyEntry tag s.top :: s.chain, top := s.top + 1 } with
      | (.val v, s') => (.val v, { s' with chain := s.chain, top := s'.top - 1 })
      | r => r
  | .wind p, s =>
    match run p { s with chain := guardEntry :: s.chain } with
    | (.val v, s') => (.val v, { s' with chain := s.chain })
    | r => r

end Pscm.Thr
