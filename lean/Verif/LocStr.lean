/-!
# C strings and Scheme strings (src/c/string.cc:1034-1105, src/c/symbol.cc:54-112)

The functions by which a host passes text to Scheme and back.  A pointer to text is modelled by the bytes that may be read from it; reading further is undefined behaviour.
`size_t` has 64 bits, `int` 32.  Running out of memory is not modelled.
-/

namespace Pscm.Lst

/-- How a call ends. -/
inductive Res (α : Type) where
  | ok (a : α)
  /-- `eval_error`. -/
  | error
  /-- An uncaught C++ exception (`std::bad_array_new_length`). -/
  | abort
  | ub
  deriving DecidableEq

/-- Scheme objects: strings and symbols with their bytes (`data`, `len`), anything else. -/
inductive Val where
  | str (bytes : List Nat)
  | sym (bytes : List Nat)
  | other
  deriving DecidableEq

/-- `strlen`: the number of bytes before the first NUL; undefined if there is none among the readable bytes. -/
def strlen : List Nat → Option Nat
  | [] => none
  | b :: bs => if b = 0 then some 0 else (strlen bs).map (· + 1)

/-- `(int) len` for a `size_t` (on all supported compilers: the low 32 bits as two's complement). -/
def toInt (len : Nat) : Int :=
  let k : Nat := len % 2 ^ 32
  if k < 2 ^ 31 then (k : Int) else (k : Int) - 2 ^ 32

/-- `new char[len + 1]`, `memcpy (data, p, len)` with an `int len` (src/c/string.cc:1037-1043, src/c/symbol.cc:54-58): the bytes copied.  `len + 1` overflows for the greatest `int`; a negative
array size raises an exception, except that `len = -1` allocates nothing and copies `SIZE_MAX` bytes. -/
def copy (p : List Nat) (len : Int) : Res (List Nat) :=
  if len < -1 then .abort
  else if len = -1 then .ub
  else if len = 2 ^ 31 - 1 then .ub
  else if p.length < len.toNat then .ub
  else .ok (p.take len.toNat)

/-- `scm_from_c_string` (src/c/string.cc:1034-1049). -/
def fromCString (p : List Nat) (len : Int) : Res Val :=
  match copy p len with
  | .ok bs => .ok (.str bs)
  | .error => .error
  | .abort => .abort
  | .ub => .ub

/-- `create_sym` (src/c/symbol.cc:54-66). -/
def createSym (p : List Nat) (len : Int) : Res Val :=
  match copy p len with
  | .ok bs => .ok (.sym bs)
  | .error => .error
  | .abort => .abort
  | .ub => .ub

/-- `(size_t) -1`. -/
def sizeMax : Nat := 2 ^ 64 - 1

/-- `scm_from_locale_stringn` (src/c/string.cc:1052-1064); `none` is the null pointer. -/
def fromLocaleStringn (p : Option (List Nat)) (len : Nat) : Res Val :=
  match p with
  | none => .error
  | some bs =>
    if len = sizeMax then
      match strlen bs with
      | none => .ub
      | some n => fromCString bs (toInt n)
    else fromCString bs (toInt len)

/-- `scm_from_locale_symboln` (src/c/symbol.cc:100-112). -/
def fromLocaleSymboln (p : Option (List Nat)) (len : Nat) : Res Val :=
  match p with
  | none => .error
  | some bs =>
    if len = sizeMax then
      match strlen bs with
      | none => .ub
      | some n => createSym bs (toInt n)
    else createSym bs (toInt len)

/-- `scm_from_locale_symbol` (src/c/symbol.cc:91-97). -/
def fromLocaleSymbol (p : Option (List Nat)) : Res Val :=
  match p with
  | none => .error
  | some bs =>
    match strlen bs with
    | none => .ub
    | some n => createSym bs (toInt n)

/-- `scm_to_locale_stringn` (src/c/string.cc:1067-1105): the allocated block and, if `lenp` is not null, the length stored there.  The null object is an error like any other that is no string. -/
def toLocaleStringn (v : Option Val) (lenp : Bool) : Res (List Nat × Option Nat) :=
  match v with
  | some (.str bs) =>
    if lenp then .ok (bs, some bs.length)
    else if strlen (bs ++ [0]) = some bs.length then .ok (bs ++ [0], none)
    else .error
  | _ => .error

/-- `scm_symbol_to_string` (src/c/symbol.cc:76-88): the `int` length of the symbol is used as it is. -/
def symbolToString (v : Val) : Res Val :=
  match v with
  | .sym bs => .ok (.str bs)
  | _ => .error

end Pscm.Lst
