import Verif.Reader
/-!
# The read-eval-print loop (src/c/repl.cc)

Standard input is the list of its bytes.  Evaluation (`pscm_eval`, which catches every Scheme error and then returns the null pointer, printed as
`<null>`; see C55, C84) is an arbitrary function `E` on an arbitrary world `σ`.  Simplifications: evaluation does not itself read standard input;
allocation does not fail; the depth of parentheses is unbounded (an `int` in the code); read errors of the C library do not occur.
-/
namespace Pscm.Repl
open Rd

/-- The local variables of `is_balanced` (src/c/repl.cc:9-12). -/
structure Scan where
  depth : Nat := 0
  inString : Bool := false
  escaped : Bool := false
  inComment : Bool := false
  deriving DecidableEq, Repr

/-- One round of the loop of `is_balanced` (src/c/repl.cc:14-53); `none`: `return false`. -/
def scanStep (s : Scan) (c : UInt8) : Option Scan :=
  if s.escaped then some { s with escaped := false }
  else if c == 92 then some { s with escaped := true }
  else if s.inComment then some (if c == 10 then { s with inComment := false } else s)
  else if c == 34 then some { s with inString := !s.inString }
  else if s.inString then some s
  else if c == 59 then some { s with inComment := true }
  else if c == 40 then some { s with depth := s.depth + 1 }
  else if c == 41 then
    match s.depth with
    | 0 => none
    | d + 1 => some { s with depth := d }
  else some s

/-- The loop of `is_balanced`. -/
def scan : Scan → Bytes → Option Scan
  | s, [] => some s
  | s, c :: t => match scanStep s c with
    | none => none
    | some s' => scan s' t

/-- `is_balanced` (src/c/repl.cc:8-57) on a text without NUL. -/
def isBalanced (t : Bytes) : Bool :=
  match scan {} t with
  | none => false
  | some s => s.depth == 0

/-- `fgets(line_buffer, n + 1, stdin)`: the bytes stored and the rest of the input. -/
def fgets : Nat → Bytes → Bytes × Bytes
  | 0, s => ([], s)
  | _ + 1, [] => ([], [])
  | n + 1, c :: t => if c == 10 then ([10], t) else (c :: (fgets n t).1, (fgets n t).2)

/-- The loop that discards the rest of a line (src/c/repl.cc:83-85). -/
def discard : Bytes → Bytes
  | [] => []
  | c :: t => if c == 10 then t else discard t

/-- The text consists of white space (src/c/repl.cc:108-112). -/
def blank (s : Bytes) : Bool := s.all fun c => c == 32 || c == 9 || c == 10 || c == 13

/-- What the user sees: a prompt (`pscm> ` or the one for continuation lines), the warning about long lines, the expression
read, what its evaluation printed and its value; and how the loop ends: at the end of the input, by an uncaught parse error (`exit(1)`, `scm_uncaught_throw`),
because evaluation ended the process, or with undefined behaviour in the reader (a numeral too large). -/
inductive Event
  | prompt (continued : Bool)
  | warning
  | echo (d : D)
  | value (text : Bytes)
  | bye
  | parseError
  | ended
  | undefined
  deriving DecidableEq, Repr

/-- Evaluation of an expression: what it prints, including the value, and the new world; `none`: the process ends. -/
abbrev Eval (σ : Type) := σ → D → Option (Bytes × σ)

variable {σ : Type}

/-- What the loop does with a complete text (src/c/repl.cc:105-128); then the buffer is empty. -/
def runText (F : FloIO) (E : Eval σ) (s : σ) (buf : Bytes) (next : σ → List Event) : List Event :=
  if blank buf then next s
  else match parse F buf with
    | .ok d _ =>
      .echo d :: match E s d with
        | some (v, s') => .value v :: next s'
        | none => [.ended]
    | .null _ => [.parseError]
    | .err => [.parseError]
    | _ => [.undefined]

/-- The line was not stored up to its newline (src/c/repl.cc:79-80). -/
def truncated (line : Bytes) : Bool := !line.isEmpty && line.getLast? != some 10

/-- The loop of `repl` (src/c/repl.cc:70-144), with fuel; `buf` is the input buffer. -/
def loop (F : FloIO) (E : Eval σ) : Nat → σ → Bytes → Bytes → List Event
  | 0, _, _, _ => []
  | n + 1, s, buf, inp =>
    .prompt (!buf.isEmpty) ::
      match inp with
      | [] => [.bye]
      | _ :: _ =>
        let line := cstr (fgets 4095 inp).1
        let rest := if truncated line then discard (fgets 4095 inp).2 else (fgets 4095 inp).2
        let buf' := buf ++ line
        (if truncated line then [.warning] else []) ++
          if isBalanced buf' then runText F E s buf' fun s' => loop F E n s' [] rest
          else loop F E n s buf' rest

/-- `repl` (src/c/repl.cc:60-145) on the given standard input. -/
def repl (F : FloIO) (E : Eval σ) (s : σ) (inp : Bytes) : List Event := loop F E (inp.length + 1) s [] inp

end Pscm.Repl
