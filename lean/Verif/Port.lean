import Verif.Reader
/-!
# String ports — model of `src/c/port.cc` and of the port output of `src/c/string.cc`

File ports and soft ports are not modelled (`FILE*` and calls back into the evaluator).  `int` has 32 bits.
-/
namespace Pscm.Port
open Rd (Bytes)

/-! ## Input -/

/-- The fields of a string input port (src/c/pscm_types.h:145-165, src/c/port.cc:185-206). -/
structure In where
  data : Bytes
  pos : Nat
  closed : Bool
  deriving DecidableEq, Repr

/-- `scm_c_open_input_string`, src/c/port.cc:185-206: the bytes are copied. -/
def openIn (s : Bytes) : In := ⟨s, 0, false⟩

/-- `read_char_from_port`, src/c/port.cc:262-276 (string case); `none` is `EOF`. -/
def readChar (p : In) : Option UInt8 × In :=
  if p.closed then (none, p)
  else if p.pos ≥ p.data.length then (none, p)
  else (some (p.data.getD p.pos 0), { p with pos := p.pos + 1 })

/-- `peek_char_from_port`, src/c/port.cc:323-345. -/
def peekChar (p : In) : Option UInt8 :=
  if p.closed then none
  else if p.pos ≥ p.data.length then none
  else some (p.data.getD p.pos 0)

/-- `scm_c_char_ready`, src/c/port.cc:878-914. -/
def charReady (p : In) : Bool := if p.closed then false else decide (p.pos < p.data.length)

/-- `scm_c_close_input_port`, src/c/port.cc:119-147. -/
def closeIn (p : In) : In := if p.closed then p else { p with closed := true }

/-! ## `read` -/

/-- Skipping white space and comments before an expression, src/c/port.cc:581-618, on the unread rest of the text; `inComment` is the
inner loop.  A comment ends at a newline or a carriage return; a newline after a carriage return is skipped too (it would be skipped
as white space in any case). -/
def skipLead (inComment : Bool) : Bytes → Bytes
  | [] => []
  | c :: t =>
    if inComment then if c == 10 || c == 13 then skipLead false t else skipLead true t
    else if isSpace c then skipLead false t
    else if c == 59 then skipLead true t
    else c :: t

/-- What the loop of `read_expr_from_port` does: gives up at the end of the text, or stops with the text for the parser. -/
inductive Got
  | eof
  | text (buf rest : Bytes)
  deriving DecidableEq, Repr

/-- Prepend a byte to the collected text. -/
def Got.push (c : UInt8) : Got → Got
  | .eof => .eof
  | .text b r => .text (c :: b) r

/-- The loop of `read_expr_from_port`, src/c/port.cc:624-683: `pos`, `paren_depth`, `in_string`, `escaped` and the unread rest.  The buffer
has 4096 bytes and is never enlarged, because the loop condition fails before the test for enlarging it can succeed. -/
def collect (pos : Nat) (depth : Int) (inStr esc : Bool) : Bytes → Got
  | [] => if pos < 4095 then if depth = 0 ∧ inStr = false then .text [] [] else .eof else .text [] []
  | c :: t =>
    if pos < 4095 then
      if esc then (collect (pos + 1) depth inStr false t).push c
      else if c == 92 && inStr then (collect (pos + 1) depth inStr true t).push c
      else if c == 34 then (collect (pos + 1) depth (!inStr) false t).push c
      else if inStr then (collect (pos + 1) depth inStr false t).push c
      else if c == 40 then (collect (pos + 1) (depth + 1) inStr false t).push c
      else if c == 41 then
        if depth - 1 < 0 then .text [c] t
        else if depth - 1 = 0 then .text [c] t
        else (collect (pos + 1) (depth - 1) inStr false t).push c
      else if depth = 0 ∧ (c == 32 || c == 9 || c == 10 || c == 13) then .text [] t
      else (collect (pos + 1) depth inStr false t).push c
    else .text [] (c :: t)

/-- `read_expr_from_port`, src/c/port.cc:561-697, and `read`: `none` is the end-of-file object, otherwise the answer of the parser. -/
def readExpr (F : Rd.FloIO) (p : In) : Option Rd.R × In :=
  if p.closed then (none, p)
  else
    let at_ (r : Bytes) : In := { p with pos := p.data.length - r.length }
    match skipLead false (p.data.drop p.pos) with
    | [] => (none, at_ [])
    | r =>
      match collect 0 0 false false r with
      | .eof => (none, at_ [])
      | .text b r' => (some (Rd.parse F b), at_ r')

/-! ## Output -/

/-- The fields of a string output port; `buf` has `output_capacity` bytes. -/
structure Out where
  buf : Bytes
  len : Nat
  closed : Bool
  deriving DecidableEq, Repr

/-- `scm_c_open_output_string`, src/c/port.cc:210-224.  The contents of fresh memory are taken to be 0; no operation reads them. -/
def openOut : Out := ⟨List.replicate 256 0, 0, false⟩

/-- A store into the buffer. -/
def store (p : Out) (i : Nat) (c : UInt8) : Res Out := if i < p.buf.length then .ok { p with buf := p.buf.set i c } else .ub

/-- `realloc` to twice the capacity (256 if it was 0: src/c/string.cc:133); the capacity is an `int`. -/
def double (p : Out) : Res Out :=
  if p.buf.length = 0 then .ok { p with buf := List.replicate 256 0 }
  else if p.buf.length * 2 < 2 ^ 31 then .ok { p with buf := p.buf ++ List.replicate p.buf.length 0 }
  else .ub

/-- `write_char_to_port_string`, src/c/port.cc:348-366 (and the copy in src/c/string.cc:143-160): the string case. -/
def writeChar (p : Out) (c : UInt8) : Res Out :=
  if p.closed then .ok p
  else do
    let p ← if p.len + 1 ≥ p.buf.length then double p else .ok p
    let p ← store p p.len c
    let p := { p with len := p.len + 1 }
    store p p.len 0

/-- The loop of `write_string_to_port`, src/c/string.cc:132-135; the `int` sum must not overflow. -/
def growFor (p : Out) (n : Nat) : Nat → Res Out
  | 0 => .oof
  | fuel + 1 =>
    if p.len + n + 1 < 2 ^ 31 then
      if p.len + n + 1 ≥ p.buf.length then do
        let p ← double p
        growFor p n fuel
      else .ok p
    else .ub

/-- `memcpy` of a text. -/
def storeAll (p : Out) (i : Nat) : Bytes → Res Out
  | [] => .ok p
  | c :: t => do
    let p ← store p i c
    storeAll p (i + 1) t

/-- `write_string_to_port`, src/c/string.cc:121-141, the string case: the text is a C string. -/
def writeString (p : Out) (s : Bytes) : Res Out :=
  if p.closed then .ok p
  else do
    let t := cstr s
    let p ← growFor p t.length 40
    let p ← storeAll p p.len t
    let p := { p with len := p.len + t.length }
    store p p.len 0

/-- `scm_c_display` and `scm_c_write` to a port, src/c/string.cc:164-280: the datum is printed to a temporary file, whose contents are
written to the port. -/
def display (F : Rd.FloIO) (p : Out) (d : Rd.D) : Res Out := writeString p (Rd.print F false d)

/-- See `display`. -/
def write (F : Rd.FloIO) (p : Out) (d : Rd.D) : Res Out := writeString p (Rd.print F true d)

/-- `scm_c_newline` to a port, src/c/string.cc:283-305. -/
def newline (p : Out) : Res Out := writeChar p 10

/-- `scm_c_close_output_port`, src/c/port.cc:150-182: the buffer is kept. -/
def closeOut (p : Out) : Out := if p.closed then p else { p with closed := true }

/-- `scm_c_get_output_string`, src/c/port.cc:242-259. -/
def getOutput (p : Out) : Bytes := p.buf.take p.len

end Pscm.Port
