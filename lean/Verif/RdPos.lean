import Verif.Reader
/-!
# Positions and the parse stack of the reader (src/c/parse.cc)

The reader of `Verif.Reader`, with what that model leaves out: the line and column counters, the calls of `set_source_location`, and the stack of
unfinished constructs that parse errors print.  `erase_rd` (Verif.RdPosErase) proves that without these it is the same reader.
Texts are shorter than 2^31 bytes, so that the counters (`int`) do not overflow.
-/
namespace Pscm.Rp
open Rd

/-- The `context_type` of a frame. -/
inductive Kind | list | vector | string | quote | quasiquote
  deriving DecidableEq, Repr

/-- `ParseStackFrame` (parse.cc:22-28); `left` is the number of bytes from `start_pos` to the end of the text. -/
structure Frame where
  kind : Kind
  line : Nat
  col : Nat
  left : Nat
  deriving DecidableEq, Repr

/-- A call of `set_source_location` by the reader: the datum, where it starts (`left` bytes before the end of the text) and the position stored. -/
structure Mark where
  datum : D
  left : Nat
  line : Nat
  col : Nat
  deriving DecidableEq, Repr

/-- `Parser` (parse.cc:13-19): what is left to read, the counters; the calls of `set_source_location` so far, and `g_parse_stack` (parse.cc:30). -/
structure P where
  r : Bytes
  line : Nat := 1
  col : Nat := 1
  log : List Mark := []
  stk : List Frame := []
  deriving DecidableEq, Repr

/-- The outcomes of `Rd.R`, with the state of the parser; `err p`: the state that `parse_error` reports. -/
inductive Q
  | ok (d : D) (p : P)
  | null (p : P)
  | err (p : P)
  | ub
  | oob
  | fuel
  deriving DecidableEq, Repr

/-- `p->pos[k]`. -/
def look (p : P) (k : Nat) (f : UInt8 → Q) : Q := if k ≤ p.r.length then f (p.r.getD k 0) else .oob
/-- `p->pos += k; p->column += k`. -/
def adv (p : P) (k : Nat) (f : P → Q) : Q := if k ≤ p.r.length then f { p with r := p.r.drop k, col := p.col + k } else .oob
/-- The loops that consume the bytes of a class, one column each. -/
def over (c : UInt8 → Bool) (p : P) : P := { p with r := p.r.dropWhile c, col := p.col + (p.r.takeWhile c).length }
/-- `push_parse_stack` (parse.cc:34-58). -/
def push (k : Kind) (p : P) : P := if p.stk.length ≥ 50 then p else { p with stk := ⟨k, p.line, p.col, p.r.length⟩ :: p.stk }
/-- `pop_parse_stack` (parse.cc:61-67). -/
def pop (p : P) : P := { p with stk := p.stk.tail }
/-- `set_source_location(d, …)` with the position of `p0`. -/
def mark (p0 : P) (d : D) (p : P) : Q := .ok d { p with log := ⟨d, p0.r.length, p0.line, p0.col⟩ :: p.log }

/-- `skip_whitespace` (parse.cc:261-282). -/
def skipPos (inComment : Bool) : Bytes → Nat → Nat → Bytes × Nat × Nat
  | [], l, c => ([], l, c)
  | b :: t, l, c =>
    if inComment then
      if b == 10 then skipPos false t (l + 1) 1 else if b == 0 then (b :: t, l, c) else skipPos true t l (c + 1)
    else if isSpace b then if b == 10 then skipPos false t (l + 1) 1 else skipPos false t l (c + 1)
    else if b == 59 then skipPos true t l (c + 1)
    else (b :: t, l, c)

/-- `skip_whitespace(p)`. -/
def skipWs (p : P) : P :=
  { p with r := (skipPos false p.r p.line p.col).1, line := (skipPos false p.r p.line p.col).2.1, col := (skipPos false p.r p.line p.col).2.2 }

/-! ## Atoms -/

/-- The exponent part (parse.cc:367-403); `p0` is the start of the number. -/
def pExp (F : FloIO) (p0 : P) (neg : Bool) (n : Int) (frac : Bytes) (p : P) : Q :=
  adv p 1 fun p1 =>
  let eneg := cur p1.r == 45
  adv p1 (if cur p1.r == 45 || cur p1.r == 43 then 1 else 0) fun p2 =>
  if isDigit (cur p2.r) then
    match accum 0 (p2.r.takeWhile isDigit) with
    | none => .ub
    | some e => mark p0 (.flo (F.read neg n frac (some (eneg, e)))) (over isDigit p2)
  else .err p2

/-- After the fraction. -/
def pTail (F : FloIO) (p0 : P) (neg : Bool) (n : Int) (frac : Option Bytes) (p : P) : Q :=
  if cur p.r == 101 || cur p.r == 69 then pExp F p0 neg n (frac.getD []) p
  else match frac with
    | some f => mark p0 (.flo (F.read neg n f none)) p
    | none => mark p0 (.num (if neg then -n else n)) p

/-- `parse_number` after the sign (parse.cc:338-428). -/
def pDigits (F : FloIO) (p0 : P) (neg : Bool) (p : P) : Q :=
  match accum 0 (p.r.takeWhile isDigit) with
  | none => .ub
  | some n =>
    let p1 := over isDigit p
    if cur p1.r == 46 then adv p1 1 fun p2 => pTail F p0 neg n (some (p2.r.takeWhile isDigit)) (over isDigit p2)
    else pTail F p0 neg n none p1

/-- `parse_number` (parse.cc:312-428). -/
def pNumber (F : FloIO) (p : P) : Q :=
  if cur p.r == 45 then look p 1 fun d => if isDigit d then adv p 1 (pDigits F p true) else .null p
  else if cur p.r == 43 then look p 1 fun d => if isDigit d then adv p 1 (pDigits F p false) else .null p
  else if isDigit (cur p.r) then pDigits F p false p
  else .null p

/-- `parse_char` (parse.cc:431-571): a newline after `#\` counts as a column. -/
def pChar (p : P) : Q :=
  if cur p.r == 35 then
    look p 1 fun d =>
    if d == 92 then
      adv p 2 fun p1 =>
      if cur p1.r == 0 then .err p1
      else if isSpace (cur p1.r) then adv p1 1 (mark p (.chr (cur p1.r)))
      else if isAlpha (cur p1.r) then
        match charName (p1.r.takeWhile isAlpha) with
        | some c => mark p (.chr c) (over isAlpha p1)
        | none => adv p1 1 (mark p (.chr (cur p1.r)))
      else adv p1 1 (mark p (.chr (cur p1.r)))
    else .null p
  else .null p

/-- First pass of `parse_string` (parse.cc:681-704): where the loop stops, and the counters there.  An escaped newline counts as a column; another
newline sets the column to 1 and is then counted as a column itself. -/
def strPos (escape : Bool) : Bytes → Nat → Nat → Bytes × Nat × Nat
  | [], l, c => ([], l, c)
  | b :: t, l, c =>
    if b == 0 then (b :: t, l, c)
    else if escape then strPos false t l (c + 1)
    else if b == 92 then strPos true t l (c + 1)
    else if b == 34 then (b :: t, l, c)
    else if b == 10 then strPos false t (l + 1) 2
    else strPos false t l (c + 1)

/-- `parse_string` (parse.cc:664-776), entered at a double quote.  The frame is popped twice on success (parse.cc:714, 768). -/
def pString (p : P) : Q :=
  adv (push .string p) 1 fun p1 =>
  let e := strPos false p1.r p1.line p1.col
  match scanStr false p1.r with
  | none => .err (pop { p1 with r := e.1, line := e.2.1, col := e.2.2 })
  | some (raw, r2) => mark p (.str (unescape false raw)) (pop (pop { p1 with r := r2, line := e.2.1, col := e.2.2 + 1 }))

/-- `strncmp(p->pos, "ab", 2) == 0 && isEnd(p->pos[2])`. -/
def litEnd (a b : UInt8) (p : P) (yes no : Q) : Q :=
  if cur p.r == a then
    look p 1 fun d => if d == b then look p 2 fun e => if isEnd e then yes else no else no
  else no

/-- `parse_symbol` (parse.cc:779-847). -/
def pSymbol (p : P) : Q :=
  litEnd 35 116 p (adv p 2 (mark p (.bool true))) <|
  litEnd 35 102 p (adv p 2 (mark p (.bool false))) <|
  if (scanSym p.r).1.isEmpty then .null p
  else mark p (.sym (symName (scanSym p.r).1)) { p with r := (scanSym p.r).2, col := p.col + (scanSym p.r).1.length }

/-- The loop of `#{...}#` (parse.cc:1241-1249): where it stops, and the counters there.  A newline sets the column to 0. -/
def bracePos : Nat → Bytes → Nat → Nat → Bytes × Nat × Nat
  | _, [], l, c => ([], l, c)
  | n, b :: t, l, c =>
    if b == 0 then (b :: t, l, c)
    else if b == 123 then bracePos (n + 1) t l (c + 1)
    else if b == 125 then
      match n with
      | 0 => (b :: t, l, c)
      | k + 1 => bracePos k t l (c + 1)
    else if b == 10 then bracePos n t (l + 1) 0
    else bracePos n t l (c + 1)

/-- `#{...}#` (parse.cc:1234-1270). -/
def pBrace (p : P) : Q :=
  adv p 2 fun p1 =>
  let e := bracePos 0 p1.r p1.line p1.col
  match scanBrace 0 p1.r with
  | none => .err { p1 with r := e.1, line := e.2.1, col := e.2.2 }
  | some (name, r2) =>
    let p2 : P := { p1 with r := r2, line := e.2.1, col := e.2.2 + 1 }
    if cur r2 == 35 then adv p2 1 (mark p (.sym name)) else .err p2

/-- Continue with the datum; a null result is a parse error, before which a frame is popped if `pops`. -/
def need (pops : Bool) (x : Q) (f : D → P → Q) : Q :=
  match x with
  | .ok d p => f d p
  | .null p => .err (if pops then pop p else p)
  | .err p => .err p
  | .ub => .ub
  | .oob => .oob
  | .fuel => .fuel

/-- Continue where the first reader returned `nullptr` (which leaves the parser as it was). -/
def orElse (x : Q) (f : Q) : Q :=
  match x with
  | .null _ => f
  | x => x

/-- The last part of `parse_expr` (parse.cc:1284-1325). -/
def pAtom (F : FloIO) (p : P) : Q :=
  let rest := orElse (pNumber F p) (orElse (pSymbol p) (.err p))
  let one := orElse (pSymbol p) rest
  litEnd 49 43 p one (litEnd 49 45 p one rest)

/-! ## Compound data -/

/-- `parse_quote` (parse.cc:855-910).  The frame is not popped after a character. -/
def pQuote (rec : Job → P → Q) (p : P) : Q :=
  if cur p.r == 39 then
    adv (push .quote p) 1 fun p1 =>
    let other := need true (orElse (rec .unq p1) (rec .expr p1)) fun d p2 => .ok (form "quote" d) (pop p2)
    if cur p1.r == 35 then
      look p1 1 fun c => if c == 92 then need false (pChar p1) fun d p2 => .ok (form "quote" d) p2 else other
    else other
  else .null p

/-- `parse_quasiquote` (parse.cc:913-944). -/
def pQuasi (rec : Job → P → Q) (p : P) : Q :=
  if cur p.r == 96 then
    adv (push .quasiquote p) 1 fun p1 =>
      need true (orElse (rec .unq p1) (rec .expr p1)) fun d p2 => .ok (form "quasiquote" d) (pop p2)
  else .null p

/-- `parse_unquote_in_list` (parse.cc:948-1031). -/
def pUnq (rec : Job → P → Q) (p : P) : Q :=
  if cur p.r == 44 then
    look p 1 fun c =>
    if c == 64 then adv p 2 fun p1 => need false (rec .expr p1) fun d p2 => .ok (form "unquote-splicing" d) p2
    else adv p 1 fun p0 =>
      let p1 := skipWs p0
      if cur p1.r == 39 then need false (rec .quote p1) fun d p2 => .ok (form "unquote" d) p2
      else if cur p1.r == 44 then need false (rec .unq p1) fun d p2 => .ok (form "unquote" d) p2
      else need false (rec .expr p1) fun d p2 => .ok (form "unquote" d) p2
  else .null p

/-- `parse_list` (parse.cc:1034-1058, 1172-1188).  The frame is not popped after `()`. -/
def pList (rec : Job → P → Q) (p : P) : Q :=
  if cur p.r == 40 then
    adv (push .list p) 1 fun p0 =>
    let p1 := skipWs p0
    if cur p1.r == 41 then adv p1 1 (mark p .nil)
    else match rec .items p1 with
      | .ok d p2 => mark p d (pop p2)
      | x => x
  else .null p

/-- The closing parenthesis (parse.cc:633-637, 1168-1173); for a list a frame is popped before the error. -/
def close (pops : Bool) (x : D) (p : P) : Q := if cur p.r == 41 then adv p 1 (.ok x) else .err (if pops then pop p else p)

/-- What follows the elements read so far (parse.cc:1083-1165); see `Rd.pDot`. -/
def pDot (rec : Job → P → Q) (elem : D) (p : P) : Q :=
  let next := need false (rec .items p) fun d p' => .ok (.pair elem d) p'
  if cur p.r == 46 then
    look p 1 fun c =>
    if dotSym c then next
    else adv p 1 fun p1 =>
      need true (orElse (rec .unq (skipWs p1)) (rec .expr (skipWs p1))) fun d p2 => close true (.pair elem (.dot d)) (skipWs p2)
  else next

/-- The loop of `parse_list` (parse.cc:1060-1170). -/
def pItems (rec : Job → P → Q) (p : P) : Q :=
  if cur p.r == 0 || cur p.r == 41 then close true .nil p
  else need true (orElse (rec .quote p) (orElse (rec .unq p) (rec .expr p))) fun elem p1 => pDot rec elem (skipWs p1)

/-- `parse_vector` (parse.cc:578-662).  The frame is popped after `#()` only. -/
def pVec (rec : Job → P → Q) (p : P) : Q :=
  if cur p.r == 35 then
    look p 1 fun c =>
    if c == 40 then
      adv (push .vector p) 2 fun p0 =>
      let p1 := skipWs p0
      if cur p1.r == 41 then adv p1 1 fun p2 => mark p (.vec .nil) (pop p2)
      else need false (rec .elems p1) fun d p2 => mark p (.vec d) p2
    else .null p
  else .null p

/-- The loop of `parse_vector` (parse.cc:614-637). -/
def pElems (rec : Job → P → Q) (p : P) : Q :=
  if cur p.r == 0 || cur p.r == 41 then close false .nil p
  else need true (orElse (rec .unq p) (rec .expr p)) fun elem p1 =>
    need false (rec .elems (skipWs p1)) fun d p2 => .ok (.pair elem d) p2

/-- The part of `parse_expr` that starts with `#` (parse.cc:1222-1282).  `#:` does not advance the column (parse.cc:1223). -/
def pHash (F : FloIO) (rec : Job → P → Q) (p : P) : Q :=
  let plain := orElse (pChar p) (orElse (rec .vec p) (pAtom F p))
  if cur p.r == 35 then
    look p 1 fun c =>
    if c == 58 then adv p 2 fun p1 => need false (pSymbol { p1 with col := p.col }) .ok
    else if c == 123 then pBrace p
    else plain
  else plain

/-- `parse_expr` (parse.cc:1191-1327). -/
def pExpr (F : FloIO) (rec : Job → P → Q) (p0 : P) : Q :=
  let p := skipWs p0
  if cur p.r == 0 then .null p
  else if cur p.r == 39 then rec .quote p
  else if cur p.r == 96 then rec .quasi p
  else if cur p.r == 40 then rec .list p
  else if cur p.r == 34 then pString p
  else pHash F rec p

def step (F : FloIO) (rec : Job → P → Q) : Job → P → Q
  | .expr => pExpr F rec
  | .quote => pQuote rec
  | .quasi => pQuasi rec
  | .unq => pUnq rec
  | .list => pList rec
  | .items => pItems rec
  | .vec => pVec rec
  | .elems => pElems rec

/-- The reader with a bound on the depth of calls. -/
def rd (F : FloIO) : Nat → Job → P → Q
  | 0, _, _ => .fuel
  | n + 1, j, p => step F (rd F n) j p

/-- `parse_expr`. -/
def parseExpr (F : FloIO) (p : P) : Q := rd F (depth p.r) .expr p

/-- `parse` (parse.cc:1330-1388) of a text, with the parse stack left by earlier calls. -/
def parse (F : FloIO) (stk : List Frame) (s : Bytes) : Q :=
  match parseExpr F { r := s, stk := stk } with
  | .ok d p => if cur (skipWs p).r == 0 then .ok d (skipWs p) else .err (skipWs p)
  | .null p => .err (skipWs p)
  | x => x

/-- The loop of `parse_file` and of `parse_string` for program texts (parse.cc:1428-1464, 1486-1522): the parse stack is cleared after
each expression. -/
def parseAll (F : FloIO) : Nat → P → Q
  | 0, _ => .fuel
  | n + 1, p =>
    if cur (skipWs p).r == 0 then .ok .nil { skipWs p with stk := [] }
    else match parseExpr F (skipWs p) with
      | .ok d p1 =>
        match parseAll F n (skipWs { p1 with stk := [] }) with
        | .ok ds p2 => .ok (.pair d ds) p2
        | x => x
      | .null p1 => .err p1
      | x => x

end Pscm.Rp
