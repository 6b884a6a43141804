import Verif.EvStep
import Verif.Num
import Verif.Str
/-!
# Some builtins on the values of the evaluator

Model of the numeric builtins (through the model of src/c/number.cc in `Num`) and of the basic list builtins on the values `V`.  Floats and ratios are opaque
values of the evaluator: a call with such an argument is left open (`none`).
-/
namespace Pscm.Ev
variable (F : FArith)

/-- A value as the argument of a numeric builtin, by `SCM::type`; floats and ratios (one of the `other` objects) are left open. -/
def numOf : V → Option NumV
  | .num n => some (.int n)
  | .flo _ => Option.none
  | .other _ => Option.none
  | _ => some .other

/-- All arguments. -/
def numsOf : List V → Option (List NumV)
  | [] => some []
  | v :: vs => (numOf v).bind fun a => (numsOf vs).map (a :: ·)

/-- The result of a numeric builtin as a value. -/
def numRes : Res NumV → Option (Res V)
  | .ok (.int n) => some (.ok (.num n))
  | .ok _ => Option.none
  | .err e => some (.err e)
  | .abort => some .abort
  | .ub => some .ub
  | .oof => Option.none

/-- `scm_bool_true()` or `scm_bool_false()`. -/
def boolRes : Res Bool → Option (Res V)
  | .ok b => some (.ok (.bool b))
  | .err e => some (.err e)
  | .abort => some .abort
  | .ub => some .ub
  | .oof => Option.none

/-- The C functions of the numeric builtins, on their arguments (src/c/number.cc:986-1009). -/
def numCall : Name → List NumV → Option (Res V)
  | "+", [a, b] => numRes (scmAdd F a b)
  | "*", [a, b] => numRes (scmMul F a b)
  | "-", ns => numRes (minus F ns)
  | "=", ns => boolRes (cmpChain F .eq ns)
  | "<", ns => boolRes (cmpChain F .lt ns)
  | ">", ns => boolRes (cmpChain F .gt ns)
  | "<=", ns => boolRes (cmpChain F .le ns)
  | ">=", ns => boolRes (cmpChain F .ge ns)
  | "zero?", [a] => boolRes (isZeroP F a)
  | "positive?", [a] => boolRes (isPositiveP F a)
  | "negative?", [a] => boolRes (isNegativeP F a)
  | "even?", [a] => boolRes (isEvenP F a)
  | "odd?", [a] => boolRes (isOddP F a)
  | "quotient", [a, b] => numRes (quotientP a b)
  | "remainder", [a, b] => numRes (remainderP a b)
  | "modulo", [a, b] => numRes (moduloP a b)
  | "abs", [a] => numRes (absP a)
  | "max", ns => numRes (extremeP F true ns)
  | "min", ns => numRes (extremeP F false ns)
  | "gcd", ns => numRes (gcdP ns)
  | "lcm", ns => numRes (lcmP ns)
  | _, _ => Option.none

/-- The C functions of the list builtins and of `not`, on their arguments: `scm_cons` (src/c/list.cc:68-90), `car` and `cdr` (src/c/pscm.h:590-624), `scm_list`
(src/c/list.cc:42-65), `scm_c_is_null`, `scm_c_is_pair`, `scm_c_not` (src/c/predicate.cc:19-25, 119-126), `scm_c_length` (src/c/list.cc:422-451, the counter
is an `int`), `scm_c_reverse` (src/c/list.cc:355-382).  (The cells of lists are values here; the models on the heap are in `ListM` and `Pred`.) -/
def listCall : Name → List V → Option (Res V)
  | "cons", [a, d] => some (.ok (.pair a d))
  | "car", [.pair a _] => some (.ok a)
  | "car", [_] => some (.err .typeError)
  | "cdr", [.pair _ d] => some (.ok d)
  | "cdr", [_] => some (.err .typeError)
  | "list", vs => some (.ok (listOf vs))
  | "null?", [.nil] => some (.ok (.bool true))
  | "null?", [_] => some (.ok (.bool false))
  | "pair?", [.pair _ _] => some (.ok (.bool true))
  | "pair?", [_] => some (.ok (.bool false))
  | "not", [v] => some (.ok (.bool (!truthy v)))
  | "length", [.nil] => some (.ok (.num 0))
  | "length", [.pair a d] => some (if (nodes (.pair a d)).length < 2 ^ 31 then .ok (.num (nodes (.pair a d)).length) else .ub)
  | "length", [_] => some (.err .evalError)
  | "reverse", [.nil] => some (.ok .nil)
  | "reverse", [.pair a d] => some (.ok (listOf (nodes (.pair a d)).reverse))
  | "reverse", [_] => some (.err .evalError)
  | _, _ => Option.none

/-- `scm_c_is_eq` and `scm_c_is_eqv` (src/c/eq.cc:212-263, 266-317).  Left open (`none`): the identity of objects, floats, and strings with a null character. -/
def eqV : V → V → Option Bool
  | .nil, .nil => some true
  | .none, .none => some true
  | .bool a, .bool b => some (decide (a = b))
  | .num a, .num b => some (decide (a = b))
  | .chr a, .chr b => some (decide (a = b))
  | .sym a, .sym b => some (decide (a = b))
  | .str a, .str b => if a = b then some true else if a.toList.contains '\x00' then Option.none else some false
  | .pair _ _, .pair _ _ => Option.none
  | .vec _, .vec _ => Option.none
  | .proc _ _ _, .proc _ _ _ => Option.none
  | .func _ _, .func _ _ => Option.none
  | .macro _ _ _, .macro _ _ _ => Option.none
  | .promise _, .promise _ => Option.none
  | .modl _, .modl _ => Option.none
  | .cont _, .cont _ => Option.none
  | .other _, .other _ => Option.none
  | .flo _, .flo _ => Option.none
  | .flo _, .num _ => Option.none
  | .num _, .flo _ => Option.none
  | _, _ => some false

/-- `scm_c_is_equal`, `_equal_recursive`, `_list_equal` (src/c/eq.cc:41-91, 319-391). -/
def equalV : V → V → Option Bool
  | .pair a d, .pair b e =>
    match equalV a b with
    | some true => equalV d e
    | r => r
  | x, y => eqV x y

/-- `is_eq_pointer` (src/c/alist.cc:9-36): integers and symbols by value, other objects of one type by address (left open). -/
def assqV : V → V → Option Bool
  | .num a, .num b => some (decide (a = b))
  | .sym a, .sym b => some (decide (a = b))
  | .nil, .nil => Option.none
  | .none, .none => Option.none
  | .bool _, .bool _ => Option.none
  | .chr _, .chr _ => Option.none
  | .str _, .str _ => Option.none
  | .flo _, .num _ => some false
  | .num _, .flo _ => some false
  | x, y => eqV x y

/-- `_eqv` of `memv` (src/c/list.cc:454-477): integers, characters and booleans by value, other objects of one type, among them symbols, by address (left open). -/
def memvV : V → V → Option Bool
  | .sym _, .sym _ => Option.none
  | .str _, .str _ => Option.none
  | .nil, .nil => Option.none
  | .none, .none => Option.none
  | x, y => eqV x y

/-- `_eq` as a test (src/c/eq.cc:152-208). -/
def legacyV (x y : V) : Option Bool :=
  match legacyEq x y with
  | .yes => some true
  | .no => some false
  | _ => Option.none

/-- The loop of `memq`, `memv` (src/c/list.cc:493-508, 525-536): the first tail whose head passes the test.  A dotted tail is left open. -/
def memV (t : V → Option Bool) : V → Option V
  | .nil => some (.bool false)
  | .pair a d =>
    match t a with
    | some true => some (.pair a d)
    | some false => memV t d
    | Option.none => Option.none
  | _ => Option.none

/-- The loop of `assq`, `assv` (src/c/alist.cc:54-65, 252-263): the first pair of the list whose head passes the test; other elements are skipped.  A dotted tail is
left open. -/
def assV (t : V → Option Bool) : V → Option V
  | .nil => some (.bool false)
  | .pair (.pair k v) d =>
    match t k with
    | some true => some (.pair k v)
    | some false => assV t d
    | Option.none => Option.none
  | .pair _ d => assV t d
  | _ => Option.none

/-- The last node of a list if it is a dotted tail. -/
def dotted : V → Option V
  | .nil => Option.none
  | .pair _ d => dotted d
  | x => some x

/-- What an argument adds to the list `scm_append` builds (src/c/list.cc:158-187). -/
def appendItems : V → List V
  | .nil => []
  | .pair a d => nodes (.pair a d)
  | x => [x]

/-- `scm_append` (src/c/list.cc:112-209): if the last argument is a dotted list, only its first element and its tail are kept. -/
def appendV : List V → V
  | [] => .nil
  | [x] => x
  | [.nil, y] => y
  | args =>
    match args.getLast? with
    | some (.pair a d) =>
      match dotted d with
      | some t => (args.dropLast.flatMap appendItems ++ [a]).foldr .pair t
      | Option.none => listOf (args.flatMap appendItems)
    | _ => listOf (args.flatMap appendItems)

/-- The length of a proper list. -/
def properLen : V → Option Nat
  | .nil => some 0
  | .pair _ d => (properLen d).map (· + 1)
  | _ => Option.none

/-- `scm_c_is_list` (src/c/predicate.cc:79-117): the loop gives up after 10001 nodes. -/
def isListV (v : V) : Bool :=
  match properLen v with
  | some n => decide (n ≤ 10001)
  | Option.none => false

/-- The type predicates (src/c/predicate.cc:11-77, src/c/char.cc: `scm_c_is_char`); whether an `other` object is a number (a ratio) is left open. -/
def typeCall : Name → V → Option Bool
  | "symbol?", .sym _ => some true
  | "symbol?", _ => some false
  | "boolean?", .bool _ => some true
  | "boolean?", _ => some false
  | "procedure?", .proc _ _ _ => some true
  | "procedure?", .func _ _ => some true
  | "procedure?", .cont _ => some true
  | "procedure?", _ => some false
  | "string?", .str _ => some true
  | "string?", _ => some false
  | "char?", .chr _ => some true
  | "char?", _ => some false
  | "integer?", .num _ => some true
  | "integer?", _ => some false
  | "number?", .num _ => some true
  | "number?", .flo _ => some true
  | "number?", .other _ => Option.none
  | "number?", _ => some false
  | "list?", v => some (isListV v)
  | _, _ => Option.none

/-- `list-tail` and `list-ref` on a list of data and an index (src/c/list.cc:255-280, 384-420); `list-tail` past the end, of the empty list and with a negative
index (a huge `size_t`) and both on dotted lists are left open. -/
def indexCall : Name → V → V → Option (Res V)
  | "list-tail", .pair a d, .num k =>
    if 0 ≤ k ∧ k ≤ (nodes (.pair a d)).length ∧ dotted d = Option.none then some (.ok (listOf ((nodes (.pair a d)).drop k.toNat))) else Option.none
  | "list-tail", _, _ => Option.none
  | "list-ref", .nil, _ => some (.err .evalError)
  | "list-ref", .pair a d, .num k =>
    if k < 0 then some (.err .evalError)
    else match (nodes (.pair a d))[k.toNat]? with
      | some v => some (.ok v)
      | Option.none => some (.err .evalError)
  | "list-ref", _, .flo _ => Option.none
  | "list-ref", _, _ => some (.err .evalError)
  | _, _, _ => Option.none

/-- The bytes of a string, one `Char` below 256 each; other strings do not occur and are left open. -/
def byteChars (s : String) : Option (List Char) := if s.toList.all (fun c => decide (c.toNat < 256)) then some s.toList else Option.none

/-- `is_char` of all nodes, and the characters (src/c/string.cc:348-360, 758-770). -/
def charsOf : List V → Option (List Char)
  | [] => some []
  | .chr c :: vs => (charsOf vs).map (Char.ofNat c.toNat :: ·)
  | _ :: _ => Option.none

/-- The string of given characters; the lengths are `int`s, an overflow (and with it a list of more than 2^31 - 2 nodes) is left open. -/
def ofChars (vs : List V) : Option (Res V) :=
  if vs.length + 1 < 2 ^ 31 then
    match charsOf vs with
    | some cs => some (.ok (.str (String.ofList cs)))
    | Option.none => some (.err .evalError)
  else Option.none

/-- The loops of `scm_c_string_append` (src/c/string.cc:671-700): the `int` total, an error at the first argument that is not a string. -/
def joinChars : List Char → List V → Option (Res V)
  | acc, [] => if acc.length + 1 < 2 ^ 31 then some (.ok (.str (String.ofList acc))) else some .ub
  | acc, .str s :: vs =>
    match byteChars s with
    | some cs => if acc.length + cs.length < 2 ^ 31 then joinChars (acc ++ cs) vs else some .ub
    | Option.none => Option.none
  | _, _ :: _ => some (.err .evalError)

/-- The comparisons of characters (src/c/char.cc:56-127). -/
def charCmp (r : UInt8 → UInt8 → Bool) : List V → Option (Res V)
  | [.chr a, .chr b] => some (.ok (.bool (r a b)))
  | [_, _] => some (.err .evalError)
  | _ => Option.none

/-- Builtins on characters, symbols and strings: `char->integer`, `integer->char` (src/c/char.cc:9-33), `char=?` and the like (src/c/char.cc:56-127),
`symbol->string`, `string->symbol` (src/c/symbol.cc:76-83, 116-124), `string-length`, `string-ref` (src/c/string.cc:7-18, 71-91), `string=?` (src/c/string.cc:308-329:
`strncmp` on strings of one length, which differ from equality for null characters only: left open), `string` (src/c/string.cc:332-382), `substring`
(src/c/string.cc:614-653), `string-append` (src/c/string.cc:656-710), `string->list`, `list->string` (src/c/string.cc:713-794).  (Strings are values here: no
builtin of this file changes one.  The models on the heap are in `Str`.) -/
def textCall : Name → List V → Option (Res V)
  | "char->integer", [.chr c] => some (.ok (.num c.toNat))
  | "char->integer", [_] => some (.err .evalError)
  | "integer->char", [.num n] => some (if n < 0 ∨ 255 < n then .err .evalError else .ok (.chr (UInt8.ofNat n.toNat)))
  | "integer->char", [_] => some (.err .evalError)
  | "char=?", vs => charCmp (fun a b => decide (a = b)) vs
  | "char<?", vs => charCmp (fun a b => decide (a.toNat < b.toNat)) vs
  | "char>?", vs => charCmp (fun a b => decide (a.toNat > b.toNat)) vs
  | "char<=?", vs => charCmp (fun a b => decide (a.toNat ≤ b.toNat)) vs
  | "char>=?", vs => charCmp (fun a b => decide (a.toNat ≥ b.toNat)) vs
  | "symbol->string", [.sym x] => some (.ok (.str x))
  | "symbol->string", [_] => some (.err .evalError)
  | "string->symbol", [.str s] => if s.toList.contains '\x00' then Option.none else some (.ok (.sym s))
  | "string->symbol", [_] => some (.err .evalError)
  | "string-length", [.str s] => (byteChars s).bind fun cs => if cs.length < 2 ^ 31 then some (.ok (.num cs.length)) else Option.none
  | "string-length", [_] => some (.err .evalError)
  | "string-ref", [.str s, .num k] =>
    (byteChars s).map fun cs =>
      if k < 0 ∨ (cs.length : Int) ≤ k then .err .evalError
      else match cs[k.toNat]? with
        | some c => .ok (.chr (UInt8.ofNat c.toNat))
        | Option.none => .ub
  | "string-ref", [_, _] => some (.err .evalError)
  | "substring", [.str s, .num i, .num j] =>
    (byteChars s).map fun cs =>
      if i < 0 ∨ (cs.length : Int) < i then .err .evalError
      else if j < i ∨ (cs.length : Int) < j then .err .evalError
      else .ok (.str (String.ofList ((cs.drop i.toNat).take (j - i).toNat)))
  | "substring", [_, _, _] => some (.err .evalError)
  | "string-append", vs => joinChars [] vs
  | "string=?", [.str s, .str t] =>
    if s.toList.contains '\x00' ∨ t.toList.contains '\x00' then Option.none
    else some (.ok (.bool (decide (s.toList.length = t.toList.length) && decide (s = t))))
  | "string=?", [_, _] => some (.err .evalError)
  | "string->list", [.str s] => (byteChars s).map fun cs => .ok (listOf (cs.map fun c => .chr (UInt8.ofNat c.toNat)))
  | "string->list", [_] => some (.err .evalError)
  | "list->string", [.nil] => some (.ok (.str ""))
  | "list->string", [.pair a d] => ofChars (nodes (.pair a d))
  | "list->string", [_] => some (.err .evalError)
  | "string", vs => ofChars vs
  | _, _ => Option.none

/-- The bytes of a string. -/
def bytesOf (s : String) : List UInt8 := s.toList.map fun c => UInt8.ofNat c.toNat

/-- `string<?` and the like (src/c/string.cc:797-890): `strncmp` on the common length, then the lengths. -/
def textCmp (onLt onGt : Bool) (onEq : Nat → Nat → Bool) : List V → Option (Res V)
  | [.str s, .str t] =>
    some (.ok (.bool (match strncmp (if (bytesOf s).length < (bytesOf t).length then (bytesOf s).length else (bytesOf t).length) (bytesOf s) (bytesOf t) with
      | .lt => onLt
      | .gt => onGt
      | .eq => onEq (bytesOf s).length (bytesOf t).length)))
  | [_, _] => some (.err .evalError)
  | _ => Option.none

/-- The classes of characters (src/c/char.cc:198-241). -/
def charClassV (p : UInt8 → Bool) : List V → Option (Res V)
  | [.chr c] => some (.ok (.bool (p c)))
  | [_] => some (.err .evalError)
  | _ => Option.none

/-- More builtins on data: `char-upcase`, `char-downcase` (src/c/char.cc:35-53), `char-ci=?` and the like (src/c/char.cc:127-195), the classes of characters,
`string<?` and the like, `number->string` of an integer without radix (src/c/string.cc:471-611; the text has at most 20 bytes), `member` (src/c/list.cc:541-566), `assoc`
(src/c/alist.cc:67-83) and `acons` (src/c/alist.cc:39-48). -/
def dataCall : Name → List V → Option (Res V)
  | "char-upcase", [.chr c] => some (.ok (.chr (toUpper c)))
  | "char-upcase", [_] => some (.err .evalError)
  | "char-downcase", [.chr c] => some (.ok (.chr (toLower c)))
  | "char-downcase", [_] => some (.err .evalError)
  | "char-alphabetic?", vs => charClassV isAlpha vs
  | "char-numeric?", vs => charClassV isDigit vs
  | "char-whitespace?", vs => charClassV isSpace vs
  | "char-upper-case?", vs => charClassV isUpper vs
  | "char-lower-case?", vs => charClassV isLower vs
  | "char-ci=?", vs => charCmp (fun a b => decide (toUpper a = toUpper b)) vs
  | "char-ci<?", vs => charCmp (fun a b => decide ((toUpper a).toNat < (toUpper b).toNat)) vs
  | "char-ci>?", vs => charCmp (fun a b => decide ((toUpper a).toNat > (toUpper b).toNat)) vs
  | "char-ci<=?", vs => charCmp (fun a b => decide ((toUpper a).toNat ≤ (toUpper b).toNat)) vs
  | "char-ci>=?", vs => charCmp (fun a b => decide ((toUpper a).toNat ≥ (toUpper b).toNat)) vs
  | "string<?", vs => textCmp true false (fun a b => decide (a < b)) vs
  | "string>?", vs => textCmp false true (fun a b => decide (b < a)) vs
  | "string<=?", vs => textCmp true false (fun a b => decide (a ≤ b)) vs
  | "string>=?", vs => textCmp false true (fun a b => decide (b ≤ a)) vs
  | "number->string", [] => some (.err .evalError)
  | "number->string", [.num n] =>
    match intToStringRadix n 10 with
    | .ok bs => some (.ok (.str (String.ofList (bs.map fun b => Char.ofNat b.toNat))))
    | .ub => some .ub
    | _ => Option.none
  | "number->string", [.flo _] => Option.none
  | "number->string", [.other _] => Option.none
  | "number->string", [_] => some (.err .evalError)
  | "member", [k, l] => (memV (legacyV k) l).map .ok
  | "assoc", [k, l] => (assV (legacyV k) l).map .ok
  | "acons", [k, v, l] => some (.ok (.pair (.pair k v) l))
  | _, _ => Option.none

/-- More list builtins: `cadr`, `cddr`, `caddr` (src/c/pscm.h:630-661), `append`, `memq`, `memv` (src/c/list.cc:482-537), `assq`, `assv` (src/c/alist.cc:50-66, 245-264),
`eq?`, `eqv?`, `equal?`, the type predicates, `list-tail`, `list-ref`; and the builtins of `textCall` and `dataCall`. -/
def moreCall : Name → List V → Option (Res V)
  | "cadr", [.pair _ (.pair b _)] => some (.ok b)
  | "cadr", [.pair _ .nil] => some (.err .typeError)
  | "cadr", [.pair _ d] => some (.ok d)
  | "cadr", [_] => some (.err .typeError)
  | "cddr", [.pair _ (.pair _ d)] => some (.ok d)
  | "cddr", [_] => some (.err .typeError)
  | "caddr", [.pair _ (.pair _ (.pair c _))] => some (.ok c)
  | "caddr", [_] => some (.err .typeError)
  | "append", vs => some (.ok (appendV vs))
  | "eq?", [a, b] => (eqV a b).map fun r => .ok (.bool r)
  | "eqv?", [a, b] => (eqV a b).map fun r => .ok (.bool r)
  | "equal?", [a, b] => (equalV a b).map fun r => .ok (.bool r)
  | "memq", [k, l] => (memV (eqV k) l).map .ok
  | "memv", [k, l] => (memV (memvV k) l).map .ok
  | "assq", [k, l] => (assV (assqV k) l).map .ok
  | "assv", [k, l] => (assV (legacyV k) l).map .ok
  | "list-tail", [l, k] => indexCall "list-tail" l k
  | "list-ref", [l, k] => indexCall "list-ref" l k
  | "char->integer", vs => textCall "char->integer" vs
  | "integer->char", vs => textCall "integer->char" vs
  | "char=?", vs => textCall "char=?" vs
  | "char<?", vs => textCall "char<?" vs
  | "char>?", vs => textCall "char>?" vs
  | "char<=?", vs => textCall "char<=?" vs
  | "char>=?", vs => textCall "char>=?" vs
  | "symbol->string", vs => textCall "symbol->string" vs
  | "string->symbol", vs => textCall "string->symbol" vs
  | "string-length", vs => textCall "string-length" vs
  | "string-ref", vs => textCall "string-ref" vs
  | "substring", vs => textCall "substring" vs
  | "string-append", vs => textCall "string-append" vs
  | "string=?", vs => textCall "string=?" vs
  | "string->list", vs => textCall "string->list" vs
  | "list->string", vs => textCall "list->string" vs
  | "string", vs => textCall "string" vs
  | "char-upcase", vs => dataCall "char-upcase" vs
  | "char-downcase", vs => dataCall "char-downcase" vs
  | "char-alphabetic?", vs => dataCall "char-alphabetic?" vs
  | "char-numeric?", vs => dataCall "char-numeric?" vs
  | "char-whitespace?", vs => dataCall "char-whitespace?" vs
  | "char-upper-case?", vs => dataCall "char-upper-case?" vs
  | "char-lower-case?", vs => dataCall "char-lower-case?" vs
  | "char-ci=?", vs => dataCall "char-ci=?" vs
  | "char-ci<?", vs => dataCall "char-ci<?" vs
  | "char-ci>?", vs => dataCall "char-ci>?" vs
  | "char-ci<=?", vs => dataCall "char-ci<=?" vs
  | "char-ci>=?", vs => dataCall "char-ci>=?" vs
  | "string<?", vs => dataCall "string<?" vs
  | "string>?", vs => dataCall "string>?" vs
  | "string<=?", vs => dataCall "string<=?" vs
  | "string>=?", vs => dataCall "string>=?" vs
  | "number->string", vs => dataCall "number->string" vs
  | "member", vs => dataCall "member" vs
  | "assoc", vs => dataCall "assoc" vs
  | "acons", vs => dataCall "acons" vs
  | name, [v] => (typeCall name v).map fun r => .ok (.bool r)
  | _, _ => Option.none

/-- The result of one of these builtins; `none`: another builtin, or left open. -/
def stdCall (name : Name) (args : List V) : Option (Res V) :=
  match listCall name args with
  | some r => some r
  | Option.none =>
    match moreCall name args with
    | some r => some r
    | Option.none => (numsOf args).bind (numCall F name)

/-- The builtins `P` of the interpreter include these. -/
structure HasStd {σ : Type} (P : Prims σ) (F : FArith) : Prop where
  ok : ∀ {name args v} (x : σ), stdCall F name args = some (.ok v) → P.call name args x = .done (.ok v) x
  err : ∀ {name args e} (x : σ), stdCall F name args = some (.err e) → ∃ k a, P.call name args x = .done (.raise k a) x
  abort : ∀ {name args} (x : σ), stdCall F name args = some .abort → P.call name args x = .done .abort x
  ub : ∀ {name args} (x : σ), stdCall F name args = some .ub → P.call name args x = .done .ub x
  /-- the initial value of the folds `(+ ...)` and `(* ...)` (src/c/function.cc:76-82, src/c/number.cc:991-994) -/
  plus : P.init "+" = .num 0
  times : P.init "*" = .num 1

/-- The builtins `P` with these replaced. -/
def withStd {σ : Type} (F : FArith) (P : Prims σ) : Prims σ where
  call := fun name args x =>
    match stdCall F name args with
    | some (.ok v) => .done (.ok v) x
    | some (.err _) => .done (.raise "error" .nil) x
    | some .abort => .done .abort x
    | some .ub => .done .ub x
    | _ => P.call name args x
  init := fun n => if n = "+" then .num 0 else if n = "*" then .num 1 else P.init n
  file := P.file

/-- Every interpreter can be given these builtins. -/
theorem withStd_has {σ : Type} (F : FArith) (P : Prims σ) : HasStd (withStd F P) F where
  ok := fun _ h => by simp only [withStd, h]
  err := fun _ h => by simp only [withStd, h]; exact ⟨_, _, rfl⟩
  abort := fun _ h => by simp only [withStd, h]
  ub := fun _ h => by simp only [withStd, h]
  plus := rfl
  times := rfl

end Pscm.Ev
