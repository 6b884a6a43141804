import Verif.RdPos
import Verif.Str
/-!
# The report of a parse error (src/c/parse.cc:70-258)

What `parse_error` and `print_parse_stack` write to the standard error, as bytes.  The text is a C string: reading stops at a zero byte.  Not modelled:
the evaluation stack printed in between (`Verif.SrcLoc`), given here as a parameter.
-/
namespace Pscm.Rp
open Rd

/-- `while (line_start > p->input && line_start[-1] != '\n') line_start--;` (parse.cc:163-165, 197-199), from the offset `k`. -/
def lineStart (text : Bytes) : Nat → Nat
  | 0 => 0
  | k + 1 => if text.getD k 0 != 10 then lineStart text k else k + 1

/-- `while (*line_end && *line_end != '\n') line_end++;` (parse.cc:169-171, 216-218): the number of steps. -/
def lineRun (r : Bytes) : Nat := (r.takeWhile fun b => b != 0 && b != 10).length

/-- `fwrite(a, 1, b - a, stderr)`. -/
def slice (text : Bytes) (a b : Nat) : Bytes := (text.drop a).take (b - a)

/-- One numbered line, if its length is in range (parse.cc:178-181, 203-207, 220-224). -/
def numbered (n : Nat) (l : Bytes) : List (Nat × Bytes) := if 0 < l.length ∧ l.length < 200 then [(n, l)] else []

/-- The numbered lines of the report (parse.cc:160-227), in the order of printing: the line of the offset `off`, the line before it and the line after
it; `line` is `p->line`. -/
def shownLines (text : Bytes) (off line : Nat) : List (Nat × Bytes) :=
  let ls := lineStart text off
  let le := off + lineRun (text.drop off)
  numbered line (slice text ls le) ++
  (if ls > 0 then
    let ps := lineStart text (ls - 1)
    if ps < ls - 1 then numbered (line - 1) (slice text ps (ls - 1)) else []
  else []) ++
  (if text.getD le 0 == 10 then numbered (line + 1) (slice text (le + 1) (le + 1 + lineRun (text.drop (le + 1)))) else [])

/-- `col_in_line` (parse.cc:174). -/
def colInLine (text : Bytes) (off : Nat) : Nat := off - lineStart text off + 1

/-- The row of a numbered line: `"  %d | "` and the line (parse.cc:179-180). -/
def lineRow (line : Nat) (l : Bytes) : Bytes := [32, 32] ++ printLld line ++ [32, 124, 32] ++ l
/-- The row with the caret (parse.cc:184-188). -/
def caretRow (col : Nat) : Bytes := List.replicate 5 32 ++ List.replicate (col - 1) 32 ++ [94]

/-- `isprint` in the C locale. -/
def isPrint (b : UInt8) : Bool := 32 ≤ b && b ≤ 126
/-- `%02x`. -/
def hex2 (b : UInt8) : Bytes := let d := fun n : Nat => (if n < 10 then 48 + n else 87 + n).toUInt8; [d (b.toNat / 16), d (b.toNat % 16)]

/-- The character shown as the current one (parse.cc:231-239). -/
def shownChar (r : Bytes) : Bytes :=
  if cur r == 0 then asc "<EOF>"
  else if cur r == 10 then asc "<newline>"
  else if isPrint (cur r) then [39, cur r, 39] ++ asc " (0x" ++ hex2 (cur r) ++ [41]
  else asc "<0x" ++ hex2 (cur r) ++ [62]

/-- The next characters (parse.cc:242-253). -/
def nextChars (r : Bytes) : Bytes :=
  let now := (r.takeWhile fun b => b != 0 && b != 10).take 20
  let after := r.drop now.length
  now.flatMap (fun b => if isPrint b then [b] else [92, 120] ++ hex2 b) ++
    if cur after == 10 then [92, 110] else if cur after != 0 then asc "..." else []

/-! ## The parse stack (parse.cc:70-143) -/

def Kind.name : Kind → Bytes
  | .list => asc "list"
  | .vector => asc "vector"
  | .string => asc "string"
  | .quote => asc "quote"
  | .quasiquote => asc "quasiquote"

/-- The row of the line where a construct starts: `"       Line %d: "` (parse.cc:108-109). -/
def frameRow (line : Nat) (l : Bytes) : Bytes := List.replicate 7 32 ++ asc "Line " ++ printLld line ++ [58, 32] ++ l
/-- The row below with the caret (parse.cc:111-118). -/
def frameCaret (col : Nat) : Bytes := List.replicate 7 32 ++ List.replicate 16 32 ++ List.replicate (col - 1) 32 ++ [94]

/-- What is shown of the text for a frame (parse.cc:86-129): nothing, the line with a caret below, or up to 60 bytes.  `none`: the start of the frame is
not in the text (it was pushed while another text was read), and the loops leave the buffer. -/
def frameContext (text : Bytes) (f : Frame) : Option Bytes :=
  if f.left ≤ text.length then
    let start := text.length - f.left
    let ls := lineStart text start
    let le := start + ((text.drop start).takeWhile fun b => b != 10 && b != 13).length
    let len := le - ls
    some <|
      if 0 < len ∧ len < 120 then frameRow f.line (slice text ls le) ++ [10] ++ frameCaret (start - ls + 1) ++ [10]
      else if 0 < len then
        let k := if start + 60 > text.length then text.length - start else 60
        List.replicate 7 32 ++ asc "Context: " ++ slice text start (start + k) ++ (if start + k < text.length then asc "..." else []) ++ [10]
      else []
  else none

/-- The header of a frame (parse.cc:81-84). -/
def frameHead (file : Bytes) (i : Nat) (f : Frame) : Bytes :=
  asc "  #" ++ printLld i ++ asc ": Parsing " ++ f.kind.name ++ [10] ++ List.replicate 7 32 ++ asc "Started at: " ++ file ++ [58] ++ printLld f.line ++
    [58] ++ printLld f.col ++ [10]

/-- The frames shown (parse.cc:78-135), at most 20. -/
def frames (file text : Bytes) : Nat → List Frame → Option Bytes
  | _, [] => some []
  | i, f :: fs => do
    let c ← frameContext text f
    let rest ← frames file text (i + 1) fs
    some (frameHead file i f ++ c ++ [10] ++ rest)

/-- `print_parse_stack` (parse.cc:70-143). -/
def printStack (file text : Bytes) (stk : List Frame) : Option Bytes :=
  if stk.isEmpty then some (asc "\nParse stack: (empty - parsing at top level)\n")
  else do
    let fs ← frames file text 0 (stk.take 20)
    some (asc "\n=== Parse Stack (showing nested parsing context) ===\nMost recent context first (innermost to outermost):\n\n" ++ fs ++
      (if stk.length > 20 then asc "  ... (" ++ printLld 20 ++ asc " more frames)\n\n" else []) ++ asc "=== End of Parse Stack ===\n")

/-- `parse_error` (parse.cc:147-255): what it writes before it raises the error; `eval` is what `print_eval_stack` writes. -/
def report (file text msg eval : Bytes) (p : P) : Option Bytes := do
  let stack ← printStack file text p.stk
  let off := text.length - p.r.length
  let rows := shownLines text off p.line
  let caret := if 0 < (slice text (lineStart text off) (off + lineRun (text.drop off))).length ∧
      (slice text (lineStart text off) (off + lineRun (text.drop off))).length < 200 then caretRow (colInLine text off) ++ [10] else []
  let row := fun r : Nat × Bytes => lineRow r.1 r.2 ++ [10]
  some (file ++ [58] ++ printLld p.line ++ [58] ++ printLld p.col ++ asc ": parse error: " ++ msg ++ [10] ++ stack ++
    asc "\n=== Scheme Evaluation Call Stack ===\n" ++ eval ++ asc "=== End of Evaluation Call Stack ===\n" ++
    (if caret.isEmpty then rows.flatMap row else ((rows.take 1).flatMap row ++ caret ++ (rows.drop 1).flatMap row)) ++
    asc "\n  Current position: column " ++ printLld (colInLine text off) ++ asc ", character: " ++ shownChar p.r ++ [10] ++
    (if cur p.r == 0 then [] else asc "  Next characters: " ++ nextChars p.r ++ [10]))

end Pscm.Rp
