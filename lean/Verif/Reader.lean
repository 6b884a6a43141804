import Verif.Str
/-!
# The reader and the printer (src/c/parse.cc, src/c/print.cc)

The reader's position is the list of the bytes from `p->pos` to the terminating NUL (exclusive); a NUL byte inside the list acts as
the terminator, as in the C++ code.  Reading `p->pos[k]` or advancing past the terminating NUL is the outcome `oob`, so that staying
inside the buffer is a theorem and not a convention.  Not modelled here: line and column numbers, the parse stack used in error messages
(parse.cc:21-143; both in Verif.RdPos), allocation.
Recursion is unbounded in the model, bounded by the machine stack in the program.
-/
namespace Pscm.Rd

abbrev Bytes := List UInt8

/-- A datum as built by the reader and walked by the printer.  A list is a chain of nodes: `pair a d` is a node with datum `a` and
`next` `d`; `nil` ends a chain (and is the empty list); `dot x` is a last node with `is_dotted`, holding `x`
(`SCM_List`, src/c/pscm_types.h).  The elements of a vector are a chain. -/
inductive D
  | nil
  | bool (b : Bool)
  | num (n : Int)
  | flo (bits : UInt64)
  | ratio (n d : Int)
  | chr (c : UInt8)
  | str (s : Bytes)
  | sym (s : Bytes)
  | pair (a d : D)
  | dot (x : D)
  | vec (elems : D)
  deriving DecidableEq, Repr, Inhabited

/-- What the floating-point arithmetic of `parse_number` computes from the sign, the integer part, the fraction digits and the
exponent, and what `printf` writes for a float: left arbitrary. -/
structure FloIO where
  read : Bool → Int → Bytes → Option (Bool × Int) → UInt64
  text : UInt64 → Bytes

/-- Outcome of a reader function: a datum and the new position; `nullptr` and the new position; a parse error (`parse_error` raises a
Scheme error and does not return); signed overflow; an access outside the buffer; `fuel` ran out. -/
inductive R
  | ok (d : D) (r : Bytes)
  | null (r : Bytes)
  | err
  | ub
  | oob
  | fuel
  deriving DecidableEq, Repr

/-- ASCII text. -/
def asc (s : String) : Bytes := s.toList.map fun c => c.toNat.toUInt8

/-! ## Characters -/

/-- `*p->pos`. -/
def cur (r : Bytes) : UInt8 := r.headD 0
/-- `p->pos[k]`. -/
def look (r : Bytes) (k : Nat) (f : UInt8 → R) : R := if k ≤ r.length then f (r.getD k 0) else .oob
/-- `p->pos += k`. -/
def adv (r : Bytes) (k : Nat) (f : Bytes → R) : R := if k ≤ r.length then f (r.drop k) else .oob

def isAlnum (c : UInt8) : Bool := isAlpha c || isDigit c
/-- `strchr(s, c) != nullptr`: also true for the terminating NUL. -/
def strchr (s : String) (c : UInt8) : Bool := c == 0 || (asc s).contains c
/-- The characters of a symbol other than the backslash (parse.cc:803-806). -/
def isConst (c : UInt8) : Bool := c != 0 && (isAlnum c || strchr "!$%&*+-./:<=>?@^_~|" c)
/-- After a dot: it begins a symbol (parse.cc:1070-1073). -/
def dotSym (c : UInt8) : Bool := c == 46 || isAlnum c || strchr "!$%&*+-./:<=>?@^_~" c
/-- What ends `#t`, `#f`, `1+` and `1-` (parse.cc:781-783, 1254-1257). -/
def isEnd (c : UInt8) : Bool := c == 0 || isSpace c || c == 41 || c == 40 || c == 59

/-- `skip_whitespace` (parse.cc:258-280); `inComment` is the inner loop. -/
def skip (inComment : Bool) : Bytes → Bytes
  | [] => []
  | c :: t =>
    if inComment then
      if c == 10 then skip false t else if c == 0 then c :: t else skip true t
    else if isSpace c then skip false t
    else if c == 59 then skip true t
    else c :: t

abbrev skipWs := skip false

/-! ## Atoms -/

/-- The loops `n = n * 10 + digit` on a `long` (parse.cc:342-346, 391-395). -/
def accum : Int → Bytes → Option Int
  | n, [] => some n
  | n, c :: t =>
    if InI64 (n * 10) ∧ InI64 (n * 10 + (c.toNat - 48 : Int)) then accum (n * 10 + (c.toNat - 48 : Int)) t else none

/-- The exponent part (parse.cc:371-410). -/
def pExp (F : FloIO) (neg : Bool) (n : Int) (frac : Bytes) (r : Bytes) : R :=
  adv r 1 fun r1 =>
  let eneg := cur r1 == 45
  adv r1 (if cur r1 == 45 || cur r1 == 43 then 1 else 0) fun r2 =>
  if isDigit (cur r2) then
    match accum 0 (r2.takeWhile isDigit) with
    | none => .ub
    | some e => .ok (.flo (F.read neg n frac (some (eneg, e)))) (r2.dropWhile isDigit)
  else .err

/-- After the fraction. -/
def pTail (F : FloIO) (neg : Bool) (n : Int) (frac : Option Bytes) (r : Bytes) : R :=
  if cur r == 101 || cur r == 69 then pExp F neg n (frac.getD []) r
  else match frac with
    | some f => .ok (.flo (F.read neg n f none)) r
    | none => .ok (.num (if neg then -n else n)) r

/-- `parse_number` after the sign (parse.cc:340-421). -/
def pDigits (F : FloIO) (neg : Bool) (r : Bytes) : R :=
  match accum 0 (r.takeWhile isDigit) with
  | none => .ub
  | some n =>
    let r1 := r.dropWhile isDigit
    if cur r1 == 46 then
      adv r1 1 fun r2 => pTail F neg n (some (r2.takeWhile isDigit)) (r2.dropWhile isDigit)
    else pTail F neg n none r1

/-- `parse_number` (parse.cc:313-421). -/
def pNumber (F : FloIO) (r : Bytes) : R :=
  if cur r == 45 then
    look r 1 fun d => if isDigit d then adv r 1 (pDigits F true) else .null r
  else if cur r == 43 then
    look r 1 fun d => if isDigit d then adv r 1 (pDigits F false) else .null r
  else if isDigit (cur r) then pDigits F false r
  else .null r

/-- The named characters (parse.cc:482-560). -/
def charName (s : Bytes) : Option UInt8 :=
  if s.map toLower = asc "space" then some 32
  else if s.map toLower = asc "newline" then some 10
  else if s.map toLower = asc "tab" then some 9
  else if s.map toLower = asc "ht" then some 9
  else none

/-- `parse_char` (parse.cc:424-575). -/
def pChar (r : Bytes) : R :=
  if cur r == 35 then
    look r 1 fun d =>
    if d == 92 then
      adv r 2 fun r1 =>
      if cur r1 == 0 then .err
      else if isSpace (cur r1) then adv r1 1 (.ok (.chr (cur r1)))
      else if isAlpha (cur r1) then
        match charName (r1.takeWhile isAlpha) with
        | some c => .ok (.chr c) (r1.dropWhile isAlpha)
        | none => adv r1 1 (.ok (.chr (cur r1)))
      else adv r1 1 (.ok (.chr (cur r1)))
    else .null r
  else .null r

/-- First pass of `parse_string` (parse.cc:678-705): the raw text between the quotes and what follows the closing quote;
`none` when the string is not terminated. -/
def scanStr (escape : Bool) : Bytes → Option (Bytes × Bytes)
  | [] => none
  | c :: t =>
    if c == 0 then none
    else if escape then (scanStr false t).map fun x => (c :: x.1, x.2)
    else if c == 92 then (scanStr true t).map fun x => (c :: x.1, x.2)
    else if c == 34 then some ([], t)
    else (scanStr false t).map fun x => (c :: x.1, x.2)

/-- One escape sequence (parse.cc:744-751). -/
def unesc (c : UInt8) : UInt8 := if c == 110 then 10 else if c == 116 then 9 else if c == 114 then 13 else c

/-- Third pass of `parse_string` (parse.cc:738-762). -/
def unescape (escape : Bool) : Bytes → Bytes
  | [] => []
  | c :: t =>
    if escape then unesc c :: unescape false t
    else if c == 92 then unescape true t
    else c :: unescape false t

/-- `parse_string` (parse.cc:664-778), entered at a double quote. -/
def pString (r : Bytes) : R :=
  adv r 1 fun r1 =>
  match scanStr false r1 with
  | none => .err
  | some (raw, r2) => .ok (.str (unescape false raw)) r2

/-- The first loop of `parse_symbol` (parse.cc:801-821): the raw text of the symbol and the rest. -/
def scanSym : Bytes → Bytes × Bytes
  | [] => ([], [])
  | [c] => if c == 92 || isConst c then ([c], []) else ([], [c])
  | c :: d :: u =>
    if c == 92 then
      if d != 0 && !isSpace d && d != 40 && d != 41 && d != 59 then (c :: d :: (scanSym u).1, (scanSym u).2)
      else (c :: (scanSym (d :: u)).1, (scanSym (d :: u)).2)
    else if isConst c then (c :: (scanSym (d :: u)).1, (scanSym (d :: u)).2)
    else ([], c :: d :: u)

/-- The second loop of `parse_symbol` (parse.cc:829-838): escapes removed. -/
def symName : Bytes → Bytes
  | [] => []
  | [c] => if c == 92 then [] else [c]
  | c :: d :: u => if c == 92 then d :: symName u else c :: symName (d :: u)

/-- `strncmp(p->pos, "ab", 2) == 0 && isEnd(p->pos[2])`. -/
def litEnd (a b : UInt8) (r : Bytes) (yes no : R) : R :=
  if cur r == a then
    look r 1 fun d => if d == b then look r 2 fun e => if isEnd e then yes else no else no
  else no

/-- `parse_symbol` (parse.cc:773-848). -/
def pSymbol (r : Bytes) : R :=
  litEnd 35 116 r (adv r 2 (.ok (.bool true))) <|
  litEnd 35 102 r (adv r 2 (.ok (.bool false))) <|
  if (scanSym r).1.isEmpty then .null r else .ok (.sym (symName (scanSym r).1)) (scanSym r).2

/-- The content of `#{...}#` (parse.cc:1213-1227): text up to the matching brace, and what follows that brace. -/
def scanBrace : Nat → Bytes → Option (Bytes × Bytes)
  | _, [] => none
  | n, c :: t =>
    if c == 0 then none
    else if c == 123 then (scanBrace (n + 1) t).map fun x => (c :: x.1, x.2)
    else if c == 125 then
      match n with
      | 0 => some ([], t)
      | k + 1 => (scanBrace k t).map fun x => (c :: x.1, x.2)
    else (scanBrace n t).map fun x => (c :: x.1, x.2)

/-- `#{...}#` (parse.cc:1208-1244). -/
def pBrace (r : Bytes) : R :=
  adv r 2 fun r1 =>
  match scanBrace 0 r1 with
  | none => .err
  | some (name, r2) => if cur r2 == 35 then adv r2 1 (.ok (.sym name)) else .err

/-- Continue with the datum; a null result is a parse error. -/
def need (x : R) (f : D → Bytes → R) : R :=
  match x with
  | .ok d r => f d r
  | .null _ => .err
  | .err => .err
  | .ub => .ub
  | .oob => .oob
  | .fuel => .fuel

/-- Continue where the first reader returned `nullptr`. -/
def orElse (x : R) (f : R) : R :=
  match x with
  | .null _ => f
  | x => x

/-- The last part of `parse_expr` (parse.cc:1252-1280). -/
def pAtom (F : FloIO) (r : Bytes) : R :=
  let rest := orElse (pNumber F r) (orElse (pSymbol r) .err)
  let one := orElse (pSymbol r) rest
  litEnd 49 43 r one (litEnd 49 45 r one rest)

/-! ## Compound data -/

/-- The mutually recursive functions of the reader. -/
inductive Job
  /-- `parse_expr` -/
  | expr
  /-- `parse_quote` -/
  | quote
  /-- `parse_quasiquote` -/
  | quasi
  /-- `parse_unquote_in_list` -/
  | unq
  /-- `parse_list` -/
  | list
  /-- the loop of `parse_list` -/
  | items
  /-- `parse_vector` -/
  | vec
  /-- the loop of `parse_vector` -/
  | elems
  deriving DecidableEq, Repr

/-- `make_list(sym, x)`. -/
def form (name : String) (x : D) : D := .pair (.sym (asc name)) (.pair x .nil)

/-- `parse_quote` (parse.cc:855-909). -/
def pQuote (rec : Job → Bytes → R) (r : Bytes) : R :=
  if cur r == 39 then
    adv r 1 fun r1 =>
    let other := need (orElse (rec .unq r1) (rec .expr r1)) fun d r2 => .ok (form "quote" d) r2
    if cur r1 == 35 then
      look r1 1 fun c => if c == 92 then need (pChar r1) fun d r2 => .ok (form "quote" d) r2 else other
    else other
  else .null r

/-- `parse_quasiquote` (parse.cc:912-943). -/
def pQuasi (rec : Job → Bytes → R) (r : Bytes) : R :=
  if cur r == 96 then
    adv r 1 fun r1 => need (orElse (rec .unq r1) (rec .expr r1)) fun d r2 => .ok (form "quasiquote" d) r2
  else .null r

/-- `parse_unquote_in_list` (parse.cc:948-1015). -/
def pUnq (rec : Job → Bytes → R) (r : Bytes) : R :=
  if cur r == 44 then
    look r 1 fun c =>
    if c == 64 then adv r 2 fun r1 => need (rec .expr r1) fun d r2 => .ok (form "unquote-splicing" d) r2
    else adv r 1 fun r0 =>
      let r1 := skipWs r0
      if cur r1 == 39 then need (rec .quote r1) fun d r2 => .ok (form "unquote" d) r2
      else if cur r1 == 44 then need (rec .unq r1) fun d r2 => .ok (form "unquote" d) r2
      else need (rec .expr r1) fun d r2 => .ok (form "unquote" d) r2
  else .null r

/-- `parse_list` (parse.cc:1018-1044). -/
def pList (rec : Job → Bytes → R) (r : Bytes) : R :=
  if cur r == 40 then
    adv r 1 fun r0 =>
    let r1 := skipWs r0
    if cur r1 == 41 then adv r1 1 (.ok .nil) else rec .items r1
  else .null r

/-- The closing parenthesis (parse.cc:1160-1166, 625-630). -/
def close (x : D) (r : Bytes) : R := if cur r == 41 then adv r 1 (.ok x) else .err

/-- What follows the elements read so far: a dot or the next element (parse.cc:1064-1157).  The two branches of the source for a dot that
is not part of a symbol do the same, and are one here. -/
def pDot (rec : Job → Bytes → R) (elem : D) (r : Bytes) : R :=
  let next := need (rec .items r) fun d r' => .ok (.pair elem d) r'
  if cur r == 46 then
    look r 1 fun c =>
    if dotSym c then next
    else adv r 1 fun r1 =>
      need (orElse (rec .unq (skipWs r1)) (rec .expr (skipWs r1))) fun d r2 => close (.pair elem (.dot d)) (skipWs r2)
  else next

/-- The loop of `parse_list` and its end (parse.cc:1046-1183). -/
def pItems (rec : Job → Bytes → R) (r : Bytes) : R :=
  if cur r == 0 || cur r == 41 then close .nil r
  else need (orElse (rec .quote r) (orElse (rec .unq r) (rec .expr r))) fun elem r1 => pDot rec elem (skipWs r1)

/-- `parse_vector` (parse.cc:582-608). -/
def pVec (rec : Job → Bytes → R) (r : Bytes) : R :=
  if cur r == 35 then
    look r 1 fun c =>
    if c == 40 then
      adv r 2 fun r0 =>
      let r1 := skipWs r0
      if cur r1 == 41 then adv r1 1 (.ok (.vec .nil)) else need (rec .elems r1) fun d r2 => .ok (.vec d) r2
    else .null r
  else .null r

/-- The loop of `parse_vector` and its end (parse.cc:610-660). -/
def pElems (rec : Job → Bytes → R) (r : Bytes) : R :=
  if cur r == 0 || cur r == 41 then close .nil r
  else need (orElse (rec .unq r) (rec .expr r)) fun elem r1 =>
    need (rec .elems (skipWs r1)) fun d r2 => .ok (.pair elem d) r2

/-- The part of `parse_expr` that starts with `#` (parse.cc:1196-1250). -/
def pHash (F : FloIO) (rec : Job → Bytes → R) (r : Bytes) : R :=
  let plain := orElse (pChar r) (orElse (rec .vec r) (pAtom F r))
  if cur r == 35 then
    look r 1 fun c =>
    if c == 58 then adv r 2 fun r1 => need (pSymbol r1) .ok
    else if c == 123 then pBrace r
    else plain
  else plain

/-- `parse_expr` (parse.cc:1186-1298). -/
def pExpr (F : FloIO) (rec : Job → Bytes → R) (r0 : Bytes) : R :=
  let r := skipWs r0
  if cur r == 0 then .null r
  else if cur r == 39 then rec .quote r
  else if cur r == 96 then rec .quasi r
  else if cur r == 40 then rec .list r
  else if cur r == 34 then pString r
  else pHash F rec r

def step (F : FloIO) (rec : Job → Bytes → R) : Job → Bytes → R
  | .expr => pExpr F rec
  | .quote => pQuote rec
  | .quasi => pQuasi rec
  | .unq => pUnq rec
  | .list => pList rec
  | .items => pItems rec
  | .vec => pVec rec
  | .elems => pElems rec

/-- The reader with a bound on the depth of calls. -/
def rd (F : FloIO) : Nat → Job → Bytes → R
  | 0, _, _ => .fuel
  | n + 1, j, r => step F (rd F n) j r

/-- A depth that always suffices (theorem `c66_terminates`). -/
def depth (r : Bytes) : Nat := 4 * r.length + 4

/-- `parse_expr` at position `r`. -/
def parseExpr (F : FloIO) (r : Bytes) : R := rd F (depth r) .expr r

/-- `parse` (parse.cc:1301-1365): one expression and nothing after it. -/
def parse (F : FloIO) (s : Bytes) : R :=
  need (parseExpr F s) fun d r => if cur (skipWs r) == 0 then .ok d (skipWs r) else .err

/-- The loop of `parse_file` and of the function `parse_string` for program texts (parse.cc:1413-1465, 1467-1520), which read all
expressions; the position before each expression follows skipped whitespace. -/
def parseAll (F : FloIO) : Nat → Bytes → R
  | 0, _ => .fuel
  | n + 1, s =>
    if cur (skipWs s) == 0 then .ok .nil (skipWs s)
    else need (parseExpr F (skipWs s)) fun d r => need (parseAll F n r) fun ds r' => .ok (.pair d ds) r'

/-! ## The printer -/

/-- `PrintContext` (print.cc:6-12). -/
structure Ctx where
  qq : Bool
  unq : Bool
  deriving DecidableEq, Repr

/-- One character of a written string (print.cc:131-147). `%03o`. -/
def escChar (c : UInt8) : Bytes :=
  if c == 92 then [92, 92]
  else if c == 34 then [92, 34]
  else if c == 10 then [92, 110]
  else if c == 9 then [92, 116]
  else if c == 13 then [92, 114]
  else if 32 ≤ c && c < 127 then [c]
  else [92, 48 + c / 64, 48 + c / 8 % 8, 48 + c % 8]

/-- `%lld`. -/
abbrev intText (n : Int) : Bytes := printLld n

/-- A character (print.cc:97-115). -/
def charText (write : Bool) (c : UInt8) : Bytes :=
  if write then
    if c == 32 then asc "#\\space"
    else if c == 10 then asc "#\\newline"
    else if c == 9 then asc "#\\ht"
    else [35, 92, c]
  else [c]

/-- A symbol (print.cc:116-125); `%s` stops at a NUL. -/
def symText (s : Bytes) : Bytes := if cur s == 58 then 35 :: cstr s else cstr s

/-- A string (print.cc:126-153). -/
def strText (write : Bool) (s : Bytes) : Bytes :=
  if write then 34 :: (s.flatMap escChar ++ [34]) else cstr s

/-- Whether the last node of a chain is dotted; the first node of a list never is (`_is_dotted_pair`, print.cc:303-317). -/
def endsDotted : D → Bool
  | .pair _ d => endsDotted d
  | .dot _ => true
  | _ => false

/-- A chain of at least one node without a dotted end: `is_pair(x) && !_is_dotted_pair(x)`. -/
def properPair : D → Bool
  | .pair _ d => !endsDotted d
  | _ => false

/-- The special heads of `_print_list` (print.cc:336-397): `_list_starts_with`. -/
inductive Head | quasi | quote | unq | splice | none
  deriving DecidableEq, Repr

def headOf : D → Head
  | .sym s =>
    if cstr s = asc "quasiquote" then .quasi
    else if cstr s = asc "quote" then .quote
    else if cstr s = asc "unquote" then .unq
    else if cstr s = asc "unquote-splicing" then .splice
    else .none
  | _ => .none

/-- What is being printed. -/
inductive PMode
  /-- a datum (`_print_ast_with_context`) -/
  | datum
  /-- the nodes of a list after the first -/
  | tail
  /-- only the datum of a node: the operand of a special form -/
  | operand
  /-- the elements of a vector; `first` when no separator is needed -/
  | elems (first : Bool)
  deriving DecidableEq, Repr

/-- `_print_ast_with_context` and `_print_list` (print.cc:40-290, 328-502).  Lists are always printed in write mode
(print.cc:176-179). Data the reader cannot build (procedures, ports, …) are not modelled. -/
def pr (F : FloIO) : PMode → Bool → Ctx → D → Bytes
  | .datum, _, _, .nil => asc "()"
  | .datum, _, _, .bool b => if b then asc "#t" else asc "#f"
  | .datum, _, _, .num n => intText n
  | .datum, _, _, .flo b => F.text b
  | .datum, _, _, .ratio n d => intText n ++ [47] ++ intText d
  | .datum, w, _, .chr c => charText w c
  | .datum, w, _, .str s => strText w s
  | .datum, _, _, .sym s => symText s
  | .datum, w, c, .vec e => asc "#(" ++ pr F (.elems true) w c e ++ asc ")"
  | .datum, _, c, .pair a d =>
    match headOf a with
    | .quasi => asc "(quasiquote" ++ (if d = .nil then asc " ()" else 32 :: pr F .operand true { c with qq := true } d) ++ asc ")"
    | .quote =>
      if c.qq && !c.unq then 39 :: (if d = .nil then asc "()" else pr F .operand true c d)
      else asc "(quote" ++ (if d = .nil then [] else 32 :: pr F .operand true c d) ++ asc ")"
    | .unq => asc "(unquote" ++ (if d = .nil then [] else 32 :: pr F .operand true { c with unq := true } d) ++ asc ")"
    | .splice => asc "(unquote-splicing" ++ (if d = .nil then [] else 32 :: pr F .operand true c d) ++ asc ")"
    | .none => 40 :: (pr F .datum true c a ++ pr F .tail true c d ++ [41])
  | .datum, _, _, .dot _ => []
  | .operand, w, c, .pair a _ => pr F .datum w c a
  | .operand, w, c, .dot x => pr F .datum w c x
  | .operand, _, _, _ => []
  | .tail, w, c, .pair a d => 32 :: (pr F .datum w c a ++ pr F .tail w c d)
  | .tail, w, c, .dot x => if properPair x then pr F .tail w c x else asc " . " ++ pr F .datum w c x
  | .tail, _, _, _ => []
  | .elems first, w, c, .pair a d => (if first then [] else [32]) ++ pr F .datum w c a ++ pr F (.elems false) w c d
  | .elems _, _, _, _ => []

/-- `print_ast(ast, write_mode)` (print.cc:35-38). -/
def print (F : FloIO) (write : Bool) (d : D) : Bytes := pr F .datum write ⟨false, false⟩ d

end Pscm.Rd
