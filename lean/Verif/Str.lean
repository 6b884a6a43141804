import Verif.Vector
import Verif.Eq
/-!
# Strings, characters, symbols — model of `src/c/string.cc`, `src/c/char.cc`, `src/c/symbol.cc`

A string is its sequence of bytes in `Heap.strs` (`SCM_String::len` is the length of the sequence; `data[len]` is always
NUL and is not stored).  `char` is 8 bits and signed, `int` 32 bits, `long` 64 bits (x86-64/AArch64-Linux: on AArch64 plain `char`
is unsigned, see `sChar`).  The program never calls `setlocale`, so `<ctype.h>` works in the "C" locale.
`strtod` and `snprintf("%g")` on doubles are parameters (`FText`).
-/
namespace Pscm

/-- Text conversions of doubles, not modelled: `strtod` (value and unread rest, `none` if no conversion) and the
`snprintf` formats of src/c/string.cc:563-570. -/
structure FText where
  strtod : List UInt8 → Option (Dbl × List UInt8)
  format : Dbl → List UInt8

/-! ## `<ctype.h>` in the "C" locale -/

def isSpace (c : UInt8) : Bool := c == 32 || (9 ≤ c && c ≤ 13)
def isUpper (c : UInt8) : Bool := 65 ≤ c && c ≤ 90
def isLower (c : UInt8) : Bool := 97 ≤ c && c ≤ 122
def isAlpha (c : UInt8) : Bool := isUpper c || isLower c
def isDigit (c : UInt8) : Bool := 48 ≤ c && c ≤ 57
def toUpper (c : UInt8) : UInt8 := if isLower c then c - 32 else c
def toLower (c : UInt8) : UInt8 := if isUpper c then c + 32 else c

/-- A byte read as a plain (signed) `char`. -/
def sChar (c : UInt8) : Int := if c.toNat < 128 then c.toNat else (c.toNat : Int) - 256

/-! ## Allocation and access -/

/-- `gc_alloc(GC_STRING, …)`, its contents, and the fresh `SCM` record (the common tail of the string constructors). -/
def newStr (s : List UInt8) : M Obj := fun h =>
  (.ok ⟨h.nextId, .str h.strs.length⟩, { h with strs := h.strs ++ [s], nextId := h.nextId + 1 })

/-- The `is_str` check and `cast<SCM_String>`; anything but a string is a Scheme error. -/
def strOf (o : Obj) : M (Addr × List UInt8) := fun h =>
  match o.v with
  | .str a => match h.strs[a]? with
    | some s => (.ok (a, s), h)
    | none => (.ub, h)
  | _ => (.err .evalError, h)

/-- The `is_char` check and `scm_to_char` (src/c/pscm.h:329-334). -/
def charOf (o : Obj) : Res UInt8 :=
  match o.v with
  | .chr c => .ok c
  | _ => .err .evalError

/-- The `is_num` check. -/
def numOf (o : Obj) : Res Int :=
  match o.v with
  | .num n => .ok n
  | _ => .err .evalError

/-! ## src/c/string.cc -/

/-- `scm_c_string_length`, src/c/string.cc:7-18. -/
def stringLength (o : Obj) : M Obj := do
  let (_, s) ← strOf o
  newObj (.num s.length)

/-- `scm_c_make_string_impl`, src/c/string.cc:22-57.  The fill loop counts in an `int`: for 2^31 or more characters the counter
overflows (undefined behaviour).  Memory exhaustion is not modelled. -/
def makeStringImpl (len : Obj) (fill : Option Obj) : M Obj := do
  let n ← M.lift (numOf len)
  if n < 0 then M.throw .evalError
  else do
    let c ← match fill with
      | none => (pure 32 : M UInt8)
      | some f => M.lift (charOf f)
    if (2:Int) ^ 31 ≤ n then M.lift .ub
    else newStr (List.replicate n.toNat c)

/-- `scm_c_make_string`, src/c/string.cc:60-69. -/
def makeString : List Obj → M Obj
  | [] => M.throw .evalError
  | [k] => makeStringImpl k none
  | k :: c :: _ => makeStringImpl k (some c)

/-- `scm_c_string_ref`, src/c/string.cc:72-91. -/
def stringRef (o k : Obj) : M Obj := do
  let (_, s) ← strOf o
  let idx ← M.lift (numOf k)
  if idx < 0 ∨ (s.length : Int) ≤ idx then M.throw .evalError
  else match s[idx.toNat]? with
    | some c => newObj (.chr c)
    | none => M.lift .ub

/-- The write `s->data[idx] = c`. -/
def writeStr (a : Addr) (s : List UInt8) (i : Nat) (c : UInt8) : M Obj := fun h =>
  if i < s.length then (.ok Obj.none, { h with strs := h.strs.set a (s.set i c) }) else (.ub, h)

/-- `scm_c_string_set`, src/c/string.cc:94-118. -/
def stringSet (o k ch : Obj) : M Obj := do
  let (a, s) ← strOf o
  let idx ← M.lift (numOf k)
  let c ← M.lift (charOf ch)
  if idx < 0 ∨ (s.length : Int) ≤ idx then M.throw .evalError
  else writeStr a s idx.toNat c

/-- `strncmp(a, b, n)` on NUL-terminated buffers: the first difference of unsigned bytes among the first `n`, stopping at a
common NUL. -/
def strncmp : Nat → List UInt8 → List UInt8 → Ordering
  | 0, _, _ => .eq
  | _ + 1, [], [] => .eq
  | _ + 1, [], b :: _ => if b = 0 then .eq else .lt
  | _ + 1, a :: _, [] => if a = 0 then .eq else .gt
  | n + 1, a :: as, b :: bs =>
    if a < b then .lt else if b < a then .gt else if a = 0 then .eq else strncmp n as bs

/-- `scm_c_string_eq`, src/c/string.cc:308-329. -/
def stringEq (x y : Obj) : M Bool := do
  let (_, s) ← strOf x
  let (_, t) ← strOf y
  if s.length ≠ t.length then pure false
  else pure (strncmp s.length s t == .eq)

/-- The common shape of `string<?`, `string>?`, `string<=?`, `string>=?`: `strncmp` over the shorter length, then `onEq` on the
lengths. `onCmp` says what is returned for a negative / positive comparison. -/
def stringCmp (onLt onGt : Bool) (onEq : Nat → Nat → Bool) (x y : Obj) : M Bool := do
  let (_, s) ← strOf x
  let (_, t) ← strOf y
  match strncmp (if s.length < t.length then s.length else t.length) s t with
  | .lt => pure onLt
  | .gt => pure onGt
  | .eq => pure (onEq s.length t.length)

/-- `scm_c_string_lt`, src/c/string.cc:797-818. -/
def stringLt := stringCmp true false (fun a b => decide (a < b))
/-- `scm_c_string_gt`, src/c/string.cc:821-842. -/
def stringGt := stringCmp false true (fun a b => decide (b < a))
/-- `scm_c_string_le`, src/c/string.cc:845-866. -/
def stringLe := stringCmp true false (fun a b => decide (a ≤ b))
/-- `scm_c_string_ge`, src/c/string.cc:869-890. -/
def stringGe := stringCmp false true (fun a b => decide (b ≤ a))

/-- The loop of `string-ci=?`, src/c/string.cc:910-916 (both strings have the same length). -/
def ciEqLoop : List UInt8 → List UInt8 → Bool
  | a :: as, b :: bs => if sChar (toUpper a) ≠ sChar (toUpper b) then false else ciEqLoop as bs
  | _, _ => true

/-- `scm_c_string_ci_eq`, src/c/string.cc:894-918. -/
def stringCiEq (x y : Obj) : M Bool := do
  let (_, s) ← strOf x
  let (_, t) ← strOf y
  if s.length ≠ t.length then pure false else pure (ciEqLoop s t)

/-- The loop of the `string-ci<?` family, src/c/string.cc:935-943 and the like: the folded bytes are stored in plain `char`s, so they are
compared as signed numbers. -/
def ciCmpLoop : List UInt8 → List UInt8 → Ordering
  | a :: as, b :: bs =>
    if sChar (toUpper a) < sChar (toUpper b) then .lt
    else if sChar (toUpper b) < sChar (toUpper a) then .gt else ciCmpLoop as bs
  | _, _ => .eq

/-- The common shape of the `string-ci<?` family. -/
def stringCiCmp (onLt onGt : Bool) (onEq : Nat → Nat → Bool) (x y : Obj) : M Bool := do
  let (_, s) ← strOf x
  let (_, t) ← strOf y
  match ciCmpLoop s t with
  | .lt => pure onLt
  | .gt => pure onGt
  | .eq => pure (onEq s.length t.length)

/-- `scm_c_string_ci_lt`, src/c/string.cc:921-946. -/
def stringCiLt := stringCiCmp true false (fun a b => decide (a < b))
/-- `scm_c_string_ci_gt`, src/c/string.cc:949-974. -/
def stringCiGt := stringCiCmp false true (fun a b => decide (b < a))
/-- `scm_c_string_ci_le`, src/c/string.cc:977-1002. -/
def stringCiLe := stringCiCmp true false (fun a b => decide (a ≤ b))
/-- `scm_c_string_ci_ge`, src/c/string.cc:1005-1030. -/
def stringCiGe := stringCiCmp false true (fun a b => decide (b ≤ a))

/-- The first pass of `string`, src/c/string.cc:346-360: every argument must be a character; `len` is an `int`. -/
def charArgs : List Obj → Res (List UInt8)
  | [] => .ok []
  | o :: os => do
    let c ← charOf o
    let r ← charArgs os
    pure (c :: r)

/-- `scm_c_string`, src/c/string.cc:332-382. -/
def string (args : List Obj) : M Obj := do
  let cs ← M.lift (charArgs args)
  newStr cs

/-- `scm_c_substring`, src/c/string.cc:614-653. -/
def substring (o start stop : Obj) : M Obj := do
  let (_, s) ← strOf o
  let i ← M.lift (numOf start)
  let j ← M.lift (numOf stop)
  if i < 0 ∨ (s.length : Int) < i then M.throw .evalError
  else if j < i ∨ (s.length : Int) < j then M.throw .evalError
  else newStr ((s.drop i.toNat).take (j - i).toNat)

/-- The two passes of `string-append`, src/c/string.cc:670-700: all arguments must be strings; their bytes are copied one after
the other. -/
def strAppendArgs : List Obj → M (List UInt8)
  | [] => pure []
  | o :: os => do
    let (_, s) ← strOf o
    let r ← strAppendArgs os
    pure (s ++ r)

/-- `scm_c_string_append`, src/c/string.cc:656-710.  `total_len` and `total_len + 1` are `int`s: overflow is undefined. -/
def stringAppend (args : List Obj) : M Obj := do
  let s ← strAppendArgs args
  let _ ← M.lift (i32 (s.length + 1))
  newStr s

/-- The loop of `string->list`, src/c/string.cc:725-733, for `i = k-1, …, 0`. -/
def strToListLoop (s : List UInt8) : Nat → Option Addr → M (Option Addr)
  | 0, r => pure r
  | k + 1, r =>
    match s[k]? with
    | some c => do
      let ch ← newObj (.chr c)
      let a ← allocNode ⟨ch, r, false⟩
      strToListLoop s k (some a)
    | none => M.lift .ub

/-- `scm_c_string_to_list`, src/c/string.cc:713-737. -/
def stringToList (o : Obj) : M Obj := do
  let (_, s) ← strOf o
  let r ← strToListLoop s s.length none
  wrapList r

/-- The passes of `list->string`, src/c/string.cc:761-786: the data of all nodes of the chain, whatever their flags; all must be
characters. -/
def chainChars : Nat → Addr → M (List UInt8)
  | 0, _ => M.lift .oof
  | fuel + 1, a => do
    let n ← getNode a
    let c ← M.lift (charOf n.data)
    match n.next with
    | none => pure [c]
    | some b => do
      let r ← chainChars fuel b
      pure (c :: r)

/-- `scm_c_list_to_string`, src/c/string.cc:740-794. `len + 1` is an `int`. -/
def listToString (fuel : Nat) (o : Obj) : M Obj :=
  match o.v with
  | .nil => newStr []
  | .list a => do
    let s ← chainChars fuel a
    let _ ← M.lift (i32 (s.length + 1))
    newStr s
  | _ => M.throw .evalError

/-! ### Numbers as text -/

/-- The digit characters, src/c/string.cc:506-510. -/
def digitOut (d : Nat) : UInt8 := if d < 10 then (48 + d).toUInt8 else (97 + (d - 10)).toUInt8

/-- The counting loop, src/c/string.cc:488-493: number of digits of `temp` (64 rounds are always enough: `temp < 2^63`, `radix ≥ 2`). -/
def countDigits (radix : Nat) : Nat → Nat → Res Nat
  | 0, _ => .oof
  | fuel + 1, temp => if 0 < temp then do
      let k ← countDigits radix fuel (temp / radix)
      pure (k + 1)
    else .ok 0

/-- The conversion loop, src/c/string.cc:501-512: digits are stored at `pos`, `pos-1`, …; a store outside the buffer is
undefined. Returns the buffer. -/
def fillDigits (radix : Nat) : Nat → Nat → Int → List UInt8 → Res (List UInt8)
  | 0, _, _, _ => .oof
  | fuel + 1, temp, pos, buf =>
    if 0 < temp then
      if 0 ≤ pos ∧ pos < buf.length then
        fillDigits radix fuel (temp / radix) (pos - 1) (buf.set pos.toNat (digitOut (temp % radix)))
      else .ub
    else .ok buf

/-- `int_to_string_radix`, src/c/string.cc:471-519; the result is the bytes before the terminating NUL. -/
def intToStringRadix (val : Int) (radix : Nat) : Res (List UInt8) :=
  if val = 0 then .ok [48]
  else do
    let uval ← if val < 0 then i64 (-val) else .ok val
    let k ← countDigits radix 65 uval.toNat
    let len := if val < 0 then k + 1 else k
    let buf ← fillDigits radix 65 uval.toNat ((len : Int) - 1) (List.replicate len 0)
    pure (if val < 0 then buf.set 0 45 else buf)

/-- Truncation of an `int64_t` to `int`. -/
def intCast (n : Int) : Int := let m := n % 2 ^ 32; if m < 2 ^ 31 then m else m - 2 ^ 32

/-- The optional radix argument, src/c/string.cc:400-413 and 536-549: `(int)` of the number, between 2 and 36; 10 if absent. -/
def radixArg : List Obj → Res Nat
  | [] => .ok 10
  | r :: _ => match r.v with
    | .num n => if intCast n < 2 ∨ 36 < intCast n then .err .evalError else .ok (intCast n).toNat
    | _ => .err .evalError

/-- The decimal digits of a natural number, as `printf` writes them (`fuel > n` is always enough). -/
def decLoop : Nat → Nat → List UInt8
  | 0, _ => []
  | fuel + 1, n => if n < 10 then [(48 + n).toUInt8] else decLoop fuel (n / 10) ++ [(48 + n % 10).toUInt8]

/-- `%d` of a non-negative number. -/
def printD (n : Nat) : List UInt8 := decLoop (n + 1) n

/-- `%lld`. -/
def printLld (n : Int) : List UInt8 := (if n < 0 then [45] else []) ++ printD n.natAbs

/-- The digit-counting loops of the ratio case, src/c/string.cc:581-588 (at most 20 rounds). -/
def countDec : Nat → Int → Nat
  | 0, _ => 0
  | fuel + 1, n => if n ≠ 0 then 1 + countDec fuel (n.tdiv 10) else 0

/-- The ratio case of `number->string`, src/c/string.cc:571-594: buffer size, `snprintf` (which truncates to the buffer). -/
def ratioToString (n d : Int) : List UInt8 :=
  let numLen := if n = 0 then 1 else 1 + (if n < 0 then 1 else 0) + countDec 20 n
  let denLen := 1 + countDec 20 d
  (printLld n ++ [47] ++ printLld d).take (numLen + denLen + 1)

/-- `scm_c_number_to_string`, src/c/string.cc:523-611. -/
def numberToString (T : FText) : List Obj → M Obj
  | [] => M.throw .evalError
  | o :: rest =>
    match o.v with
    | .num n => do
      let r ← M.lift (radixArg rest)
      let s ← M.lift (intToStringRadix n r)
      newStr s
    | .flo d => do
      let r ← M.lift (radixArg rest)
      if r ≠ 10 then M.throw .evalError else newStr (T.format d)
    | .ratio n d => do
      let r ← M.lift (radixArg rest)
      if r ≠ 10 then M.throw .evalError else newStr (ratioToString n d)
    | _ => M.throw .evalError

/-- Value of a character as a digit for `strtol`. -/
def digitIn (c : UInt8) : Option Nat :=
  if isDigit c then some (c.toNat - 48)
  else if isLower c then some (c.toNat - 97 + 10)
  else if isUpper c then some (c.toNat - 65 + 10)
  else none

/-- The digits at the start of the text: accumulated value, whether there was any, and the rest. -/
def scanDigits (base : Nat) : List UInt8 → Nat → Bool → Nat × Bool × List UInt8
  | [], acc, any => (acc, any, [])
  | c :: cs, acc, any =>
    match digitIn c with
    | some d => if d < base then scanDigits base cs (acc * base + d) true else (acc, any, c :: cs)
    | none => (acc, any, c :: cs)

/-- The optional `0x`/`0X` of `strtol(…, 16)`: skipped when a hexadecimal digit follows. (glibc ≥ 2.38 may also accept `0b` in base 2; not
modelled.) -/
def skipHex (base : Nat) (s : List UInt8) : List UInt8 :=
  match s with
  | 48 :: x :: d :: rest =>
    if base = 16 ∧ (x = 120 ∨ x = 88) ∧ (match digitIn d with | some v => decide (v < 16) | none => false) = true then d :: rest else s
  | _ => s

/-- The optional sign of `strtol`. -/
def signSplit : List UInt8 → Bool × List UInt8
  | 45 :: r => (true, r)
  | 43 :: r => (false, r)
  | r => (false, r)

/-- `strtol(s, &end, base)` for 2 ≤ base ≤ 36 on a 64-bit `long`: white space, sign, digits; saturates on overflow.  `none`: no conversion
(`end == s`); otherwise the value and the text at `end`. -/
def strtol (s : List UInt8) (base : Nat) : Option (Int × List UInt8) :=
  let s1 := s.dropWhile isSpace
  let neg := (signSplit s1).1
  match scanDigits base (skipHex base (signSplit s1).2) 0 false with
  | (v, true, rest) =>
    some (if neg then (if 2 ^ 63 < v then -2 ^ 63 else -(v : Int)) else (if 2 ^ 63 ≤ v then 2 ^ 63 - 1 else (v : Int)), rest)
  | (_, false, _) => none

/-- `*endptr == '\0'`. -/
def atNul : List UInt8 → Bool
  | c :: _ => c == 0
  | [] => false

/-- `scm_c_string_to_number`, src/c/string.cc:386-468.  The text handed to `strtod`/`strtol` is the string with its terminating NUL. -/
def stringToNumber (T : FText) : List Obj → M Obj
  | [] => M.throw .evalError
  | o :: rest => do
    let (_, s) ← strOf o
    let r ← M.lift (radixArg rest)
    if s.length = 0 then pure Obj.f
    else if (s.any fun c => c == 46 || c == 101 || c == 69) ∧ r = 10 then
      match T.strtod (s ++ [0]) with
      | some (d, e) => if atNul e then newObj (.flo d) else pure Obj.f
      | none => pure Obj.f
    else
      match strtol (s ++ [0]) r with
      | some (n, e) => if atNul e then newObj (.num n) else pure Obj.f
      | none => pure Obj.f

/-! ## src/c/char.cc -/

/-- `scm_c_char_to_integer`, src/c/char.cc:9-20. -/
def charToInteger (o : Obj) : M Obj := do
  let c ← M.lift (charOf o)
  newObj (.num c.toNat)

/-- `scm_c_integer_to_char`, src/c/char.cc:22-33. -/
def integerToChar (o : Obj) : M Obj := do
  let n ← M.lift (numOf o)
  if n < 0 ∨ 255 < n then M.throw .evalError else newObj (.chr n.toNat.toUInt8)

/-- `scm_c_char_upcase`, src/c/char.cc:35-43. -/
def charUpcase (o : Obj) : M Obj := do
  let c ← M.lift (charOf o)
  newObj (.chr (toUpper c))

/-- `scm_c_char_downcase`, src/c/char.cc:45-53. -/
def charDowncase (o : Obj) : M Obj := do
  let c ← M.lift (charOf o)
  newObj (.chr (toLower c))

/-- The two checks and the comparison of the `char=?` family. -/
def charCmp (p : UInt8 → UInt8 → Bool) (x y : Obj) : Res Bool := do
  let a ← charOf x
  let b ← charOf y
  pure (p a b)

/-- `char=?` … `char>=?`, src/c/char.cc:56-124 (compared as `unsigned char`). -/
def charEq := charCmp (fun a b => a == b)
def charLt := charCmp (fun a b => decide (a < b))
def charGt := charCmp (fun a b => decide (b < a))
def charLe := charCmp (fun a b => decide (a ≤ b))
def charGe := charCmp (fun a b => decide (b ≤ a))

/-- `char-ci=?` … `char-ci>=?`, src/c/char.cc:127-195 (the upper-case forms, as `unsigned char`). -/
def charCiEq := charCmp (fun a b => toUpper a == toUpper b)
def charCiLt := charCmp (fun a b => decide (toUpper a < toUpper b))
def charCiGt := charCmp (fun a b => decide (toUpper b < toUpper a))
def charCiLe := charCmp (fun a b => decide (toUpper a ≤ toUpper b))
def charCiGe := charCmp (fun a b => decide (toUpper b ≤ toUpper a))

/-- `char-alphabetic?` … `char-lower-case?`, src/c/char.cc:198-241. -/
def charClass (p : UInt8 → Bool) (x : Obj) : Res Bool := do
  let a ← charOf x
  pure (p a)
def charAlphabetic := charClass isAlpha
def charNumeric := charClass isDigit
def charWhitespace := charClass isSpace
def charUpperCase := charClass isUpper
def charLowerCase := charClass isLower

/-! ## src/c/symbol.cc -/

/-- `create_sym`, src/c/symbol.cc:54-65: `len + 1` is an `int`. -/
def createSym (s : List UInt8) : M Obj := do
  let _ ← M.lift (i32 (s.length + 1))
  newObj (.sym s)

/-- `scm_c_string_to_symbol`, src/c/symbol.cc:119-126. -/
def stringToSymbol (o : Obj) : M Obj := do
  let (_, s) ← strOf o
  createSym s

/-- `scm_c_symbol_to_string`, src/c/symbol.cc:77-84, with `scm_from_c_string`, src/c/string.cc:1034-1048 (`len + 1` is an `int`). -/
def symbolToString (o : Obj) : M Obj :=
  match o.v with
  | .sym s => do
    let _ ← M.lift (i32 (s.length + 1))
    newStr s
  | _ => M.throw .evalError

/-- `snprintf(buffer, size, …)` of a text: at most `size - 1` characters. -/
def snprintf (size : Nat) (t : List UInt8) : List UInt8 := t.take (size - 1)

/-- `scm_c_gensym`, src/c/symbol.cc:67-72, with its static counter: the symbol ` g<index>` and the incremented counter; overflow of the
`int` is undefined. -/
def gensym (index : Nat) : M (Obj × Nat) := do
  let next ← M.lift (i32 (index + 1))
  let o ← newObj (.sym (snprintf 32 ([32, 103] ++ printD index)))
  pure (o, next.toNat)

end Pscm
