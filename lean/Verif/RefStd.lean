import Verif.RefSem
/-!
# The meaning of some standard builtins

Also a specification: what R5RS says of these procedures on integers, booleans, lists, characters, symbols and strings.  Two limits of the interpreter are part of it: an integer has 64 bits
(a result outside, also an intermediate one, has no meaning), and parity, `max` and `min` are known up to `2^53` only.  `list?` is known for lists of up to 10000 elements.  A
string has less than 2^31 - 1 characters, with codes below 256; what a null character in a string does to symbols and comparisons is left open.
-/
namespace Pscm.Ref

/-- A 64-bit integer. -/
def Word (n : Int) : Prop := -(2 : Int) ^ 63 ≤ n ∧ n < (2 : Int) ^ 63

instance (n : Int) : Decidable (Word n) := inferInstanceAs (Decidable (_ ∧ _))

/-- All arguments are integers. -/
def ints : List Val → Option (List Int)
  | [] => some []
  | .num n :: vs => (ints vs).map (n :: ·)
  | _ :: _ => none

/-- An operation applied from left to right, as long as the results are 64-bit integers. -/
def running (f : Int → Int → Int) : Int → List Int → Ret Val
  | acc, [] => .val (.num acc)
  | acc, n :: ns => if Word (f acc n) then running f (f acc n) ns else .unknown

/-- Is each integer related to the next one? -/
def chain (r : Int → Int → Bool) : List Int → Bool
  | a :: b :: ns => r a b && chain r (b :: ns)
  | _ => true

/-- The elements of a proper list. -/
def Val.elems : Val → Option (List Val)
  | .nil => some []
  | .pair a d => d.elems.map (a :: ·)
  | _ => none

/-- A procedure of one argument. -/
def unary (f : Val → Ret Val) : List Val → Ret Val
  | [v] => f v
  | _ => .error

/-- A procedure of two arguments. -/
def binary (f : Val → Val → Ret Val) : List Val → Ret Val
  | [v, w] => f v w
  | _ => .error

/-- Integer division: an error for the divisor 0, no meaning for arguments that are not 64-bit integers and for the one quotient that is not. -/
def division (f : Int → Int → Int) : Val → Val → Ret Val
  | .num a, .num b =>
    if b = 0 then .error
    else if Word a ∧ Word b ∧ Word (a.tdiv b) then .val (.num (f a b))
    else .unknown
  | _, _ => .error

/-- A predicate on integers. -/
def intTest (p : Int → Bool) : Val → Ret Val
  | .num n => .val (.bool (p n))
  | _ => .error

/-- A sum, product, or comparison of integers. -/
def onInts (f : List Int → Ret Val) (vs : List Val) : Ret Val :=
  match ints vs with
  | some ns => f ns
  | none => .unknown

/-- Are the values the same, in the sense of `eqv?`?  Left open for strings, lists and procedures. -/
def sameKey (v w : Val) : Option Bool :=
  match v.key, w.key with
  | some a, some b => some (decide (a = b))
  | some _, none => some false
  | none, some _ => some false
  | none, none => none

/-- A value made of data only. -/
def Val.datum : Val → Option Datum
  | .nil => some .nil
  | .bool b => some (.bool b)
  | .num n => some (.num n)
  | .chr c => some (.chr c)
  | .str s => if s.toList.contains '\x00' then none else some (.str s)
  | .sym x => some (.sym x)
  | .pair a d => a.datum.bind fun a => d.datum.map fun d => .pair a d
  | _ => none

/-- The first tail of a list whose head passes the test. -/
def firstTail (t : Val → Option Bool) : List Val → Ret Val
  | [] => .val (.bool false)
  | v :: vs =>
    match t v with
    | some true => .val (Val.list (v :: vs))
    | some false => firstTail t vs
    | none => .unknown

/-- The first pair of a list of pairs whose head passes the test. -/
def firstEntry (t : Val → Option Bool) : List Val → Ret Val
  | [] => .val (.bool false)
  | .pair k v :: vs =>
    match t k with
    | some true => .val (.pair k v)
    | some false => firstEntry t vs
    | none => .unknown
  | _ :: _ => .unknown

/-- An integer or a symbol. -/
def Val.isName : Val → Bool
  | .num _ => true
  | .sym _ => true
  | _ => false

/-- An integer, a character or a boolean. -/
def Val.isSimple : Val → Bool
  | .num _ => true
  | .chr _ => true
  | .bool _ => true
  | _ => false

/-- The elements of several proper lists. -/
def allElems : List Val → Option (List Val)
  | [] => some []
  | v :: vs => v.elems.bind fun us => (allElems vs).map fun ws => us ++ ws

/-- A predicate on values. -/
def typeTest (p : Val → Bool) : List Val → Ret Val := unary fun v => .val (.bool (p v))

/-- The largest or smallest of integers. -/
def extreme (f : Int → Int → Int) : List Int → Ret Val
  | [] => .error
  | n :: ns => if ∀ m ∈ n :: ns, m.natAbs ≤ 2 ^ 53 then .val (.num (ns.foldl f n)) else .unknown

/-- A character with the code of a byte: the strings of the interpreter are made of these. -/
def Byte (c : Char) : Prop := c.toNat < 256

instance (c : Char) : Decidable (Byte c) := inferInstanceAs (Decidable (_ < _))

/-- A string the interpreter can hold: less than 2^31 - 1 bytes. -/
def Fits (s : List Char) : Prop := (∀ c ∈ s, Byte c) ∧ s.length < 2 ^ 31 - 1

instance (s : List Char) : Decidable (Fits s) := inferInstanceAs (Decidable (_ ∧ _))

/-- The character of a byte. -/
def charOf (b : UInt8) : Char := Char.ofNat b.toNat
/-- The byte of such a character. -/
def byteOf (c : Char) : UInt8 := UInt8.ofNat c.toNat

/-- A string as a value. -/
def strOf (s : List Char) : Val := .str (String.ofList s)

/-- A procedure of three arguments. -/
def ternary (f : Val → Val → Val → Ret Val) : List Val → Ret Val
  | [u, v, w] => f u v w
  | _ => .error

/-- All arguments are characters. -/
def chars : List Val → Option (List Char)
  | [] => some []
  | .chr c :: vs => (chars vs).map (charOf c :: ·)
  | _ :: _ => none

/-- The string of given characters. -/
def spell (vs : List Val) : Ret Val :=
  if vs.length < 2 ^ 31 - 1 then
    match chars vs with
    | some cs => .val (strOf cs)
    | none => .error
  else .unknown

/-- Strings joined from left to right, as long as the result fits. -/
def joined : List Char → List Val → Ret Val
  | acc, [] => .val (strOf acc)
  | acc, .str s :: vs => if Fits (acc ++ s.toList) then joined (acc ++ s.toList) vs else .unknown
  | _, _ :: _ => .error

/-- A comparison of two characters by their codes. -/
def charTest (r : Nat → Nat → Bool) : List Val → Ret Val := binary fun
  | .chr a, .chr b => .val (.bool (r a.toNat b.toNat))
  | _, _ => .error

/-- What a procedure does with a string that fits. -/
def onText (s : String) (f : List Char → Ret Val) : Ret Val := if Fits s.toList then f s.toList else .unknown

/-- A string without the null character. -/
def NoNul (s : String) : Prop := ∀ c ∈ s.toList, c ≠ '\x00'

instance (s : String) : Decidable (NoNul s) := inferInstanceAs (Decidable (∀ c ∈ s.toList, c ≠ '\x00'))

/-- The upper-case letter of a lower-case letter (by its code, as in ASCII). -/
def upper (c : Nat) : Nat := if 97 ≤ c ∧ c ≤ 122 then c - 32 else c
/-- The lower-case letter of an upper-case letter. -/
def lower (c : Nat) : Nat := if 65 ≤ c ∧ c ≤ 90 then c + 32 else c

/-- A change of a character. -/
def charMap (f : Nat → Nat) : List Val → Ret Val := unary fun
  | .chr c => .val (.chr (UInt8.ofNat (f c.toNat)))
  | _ => .error

/-- A class of characters. -/
def charIs (p : Nat → Bool) : List Val → Ret Val := unary fun
  | .chr c => .val (.bool (p c.toNat))
  | _ => .error

/-- A comparison of two strings, in the lexicographic order of the codes. -/
def textTest (r : String → String → Bool) : List Val → Ret Val := binary fun
  | .str s, .str t => if Fits s.toList ∧ Fits t.toList ∧ NoNul s ∧ NoNul t then .val (.bool (r s t)) else .unknown
  | _, _ => .error

/-- Every pair in it continues to the end of a list (no dotted pairs). -/
def Datum.proper : Datum → Bool
  | .pair a .nil => a.proper
  | .pair a (.pair b d) => a.proper && (Datum.pair b d).proper
  | .pair _ _ => false
  | _ => true

/-- Are the values equal, in the sense of `equal?`?  Left open for dotted pairs and values that are not data. -/
def sameDatum (v w : Val) : Option Bool :=
  match v.datum, w.datum with
  | some a, some b => if a.proper ∧ b.proper then some (decide (a = b)) else none
  | _, _ => none

/-- The least common multiple of integers, as long as the results are 64-bit integers. -/
def multiples : Nat → List Int → Ret Val
  | acc, [] => .val (.num acc)
  | acc, n :: ns => if Word (Nat.lcm acc n.natAbs) then multiples (Nat.lcm acc n.natAbs) ns else .unknown

/-- The builtins and their results. -/
def stdAp : Name → List Val → Ret Val
  | "+" => onInts (running (· + ·) 0)
  | "*" => onInts (running (· * ·) 1)
  | "-" => onInts fun
    | [] => .error
    | [n] => if Word n ∧ Word (-n) then .val (.num (-n)) else .unknown
    | n :: ns => if Word n then running (· - ·) n ns else .unknown
  | "=" => onInts fun ns => .val (.bool (chain (fun a b => a = b) ns))
  | "<" => onInts fun ns => .val (.bool (chain (fun a b => a < b) ns))
  | ">" => onInts fun ns => .val (.bool (chain (fun a b => a > b) ns))
  | "<=" => onInts fun ns => .val (.bool (chain (fun a b => a ≤ b) ns))
  | ">=" => onInts fun ns => .val (.bool (chain (fun a b => a ≥ b) ns))
  | "zero?" => unary (intTest fun n => n = 0)
  | "positive?" => unary (intTest fun n => 0 < n)
  | "negative?" => unary (intTest fun n => n < 0)
  | "even?" => unary fun
    | .num n => if n.natAbs ≤ 2 ^ 53 then .val (.bool (n % 2 = 0)) else .unknown
    | _ => .error
  | "odd?" => unary fun
    | .num n => if n.natAbs ≤ 2 ^ 53 then .val (.bool (n % 2 = 1)) else .unknown
    | _ => .error
  | "quotient" => binary (division Int.tdiv)
  | "remainder" => binary (division Int.tmod)
  | "modulo" => binary (division Int.fmod)
  | "cons" => binary fun a d => .val (.pair a d)
  | "car" => unary fun
    | .pair a _ => .val a
    | _ => .error
  | "cdr" => unary fun
    | .pair _ d => .val d
    | _ => .error
  | "list" => fun vs => .val (Val.list vs)
  | "null?" => unary fun
    | .nil => .val (.bool true)
    | _ => .val (.bool false)
  | "pair?" => unary fun
    | .pair _ _ => .val (.bool true)
    | _ => .val (.bool false)
  | "not" => unary fun v => .val (.bool (!v.isTrue))
  | "length" => unary fun v =>
    match v.elems with
    | some vs => if vs.length < 2 ^ 31 then .val (.num vs.length) else .unknown
    | none => .unknown
  | "reverse" => unary fun v =>
    match v.elems with
    | some vs => .val (Val.list vs.reverse)
    | none => .unknown
  | "append" => fun vs =>
    match allElems vs with
    | some us => .val (Val.list us)
    | none => .unknown
  | "cadr" => unary fun
    | .pair _ (.pair b _) => .val b
    | .pair _ .nil => .error
    | .pair _ _ => .unknown
    | _ => .error
  | "cddr" => unary fun
    | .pair _ (.pair _ d) => .val d
    | _ => .error
  | "caddr" => unary fun
    | .pair _ (.pair _ (.pair c _)) => .val c
    | _ => .error
  | "eq?" => binary fun v w =>
    match sameKey v w with
    | some b => .val (.bool b)
    | none => .unknown
  | "eqv?" => binary fun v w =>
    match sameKey v w with
    | some b => .val (.bool b)
    | none => .unknown
  | "equal?" => binary fun v w =>
    match v.datum, w.datum with
    | some a, some b => .val (.bool (decide (a = b)))
    | _, _ => .unknown
  | "memq" => binary fun v l =>
    match l.elems with
    | some vs => firstTail (sameKey v) vs
    | none => .unknown
  | "memv" => binary fun v l =>
    match l.elems with
    | some vs => if v.isSimple then firstTail (sameKey v) vs else .unknown
    | none => .unknown
  | "assq" => binary fun v l =>
    match l.elems with
    | some vs => if v.isName then firstEntry (sameKey v) vs else .unknown
    | none => .unknown
  | "assv" => binary fun v l =>
    match l.elems with
    | some vs => firstEntry (sameKey v) vs
    | none => .unknown
  | "list-tail" => binary fun l k =>
    match l.elems, k with
    | some (v :: vs), .num k => if 0 ≤ k ∧ k ≤ (v :: vs).length then .val (Val.list ((v :: vs).drop k.toNat)) else .unknown
    | _, _ => .unknown
  | "list-ref" => binary fun l k =>
    match l.elems, k with
    | some vs, .num k => if k < 0 then .error else
      match vs[k.toNat]? with
      | some v => .val v
      | none => .error
    | _, _ => .unknown
  | "symbol?" => typeTest fun
    | .sym _ => true
    | _ => false
  | "boolean?" => typeTest fun
    | .bool _ => true
    | _ => false
  | "procedure?" => typeTest fun
    | .prim _ => true
    | .clo _ _ _ _ => true
    | _ => false
  | "string?" => typeTest fun
    | .str _ => true
    | _ => false
  | "char?" => typeTest fun
    | .chr _ => true
    | _ => false
  | "number?" => typeTest fun
    | .num _ => true
    | _ => false
  | "integer?" => typeTest fun
    | .num _ => true
    | _ => false
  | "list?" => unary fun v =>
    match v.elems with
    | some vs => if vs.length ≤ 10000 then .val (.bool true) else .unknown
    | none => .val (.bool false)
  | "abs" => unary fun
    | .num n => if Word n ∧ Word (-n) then .val (.num n.natAbs) else .unknown
    | _ => .unknown
  | "max" => onInts (extreme fun a b => if a ≤ b then b else a)
  | "min" => onInts (extreme fun a b => if a ≤ b then a else b)
  | "char->integer" => unary fun
    | .chr c => .val (.num c.toNat)
    | _ => .error
  | "integer->char" => unary fun
    | .num n => if 0 ≤ n ∧ n < 256 then .val (.chr (UInt8.ofNat n.toNat)) else .error
    | _ => .error
  | "char=?" => charTest fun a b => a = b
  | "char<?" => charTest fun a b => a < b
  | "char>?" => charTest fun a b => a > b
  | "char<=?" => charTest fun a b => a ≤ b
  | "char>=?" => charTest fun a b => a ≥ b
  | "symbol->string" => unary fun
    | .sym x => .val (.str x)
    | _ => .error
  | "string->symbol" => unary fun
    | .str s => if NoNul s then .val (.sym s) else .unknown
    | _ => .error
  | "string-length" => unary fun
    | .str s => onText s fun cs => .val (.num cs.length)
    | _ => .error
  | "string-ref" => binary fun
    | .str s, .num k => onText s fun cs =>
      if k < 0 then .error else
      match cs[k.toNat]? with
      | some c => .val (.chr (byteOf c))
      | none => .error
    | _, _ => .error
  | "substring" => ternary fun
    | .str s, .num i, .num j => onText s fun cs =>
      if 0 ≤ i ∧ i ≤ j ∧ j ≤ cs.length then .val (strOf ((cs.take j.toNat).drop i.toNat)) else .error
    | _, _, _ => .error
  | "string-append" => joined []
  | "string=?" => binary fun
    | .str s, .str t => if NoNul s ∧ NoNul t then .val (.bool (decide (s = t))) else .unknown
    | _, _ => .error
  | "string->list" => unary fun
    | .str s => onText s fun cs => .val (Val.list (cs.map fun c => .chr (byteOf c)))
    | _ => .error
  | "list->string" => unary fun v =>
    match v.elems with
    | some vs => spell vs
    | none => .unknown
  | "string" => spell
  | "char-upcase" => charMap upper
  | "char-downcase" => charMap lower
  | "char-alphabetic?" => charIs fun c => decide (65 ≤ c ∧ c ≤ 90 ∨ 97 ≤ c ∧ c ≤ 122)
  | "char-numeric?" => charIs fun c => decide (48 ≤ c ∧ c ≤ 57)
  | "char-whitespace?" => charIs fun c => decide (9 ≤ c ∧ c ≤ 13 ∨ c = 32)
  | "char-upper-case?" => charIs fun c => decide (65 ≤ c ∧ c ≤ 90)
  | "char-lower-case?" => charIs fun c => decide (97 ≤ c ∧ c ≤ 122)
  | "char-ci=?" => charTest fun a b => upper a = upper b
  | "char-ci<?" => charTest fun a b => upper a < upper b
  | "char-ci>?" => charTest fun a b => upper a > upper b
  | "char-ci<=?" => charTest fun a b => upper a ≤ upper b
  | "char-ci>=?" => charTest fun a b => upper a ≥ upper b
  | "string<?" => textTest fun s t => decide (s < t)
  | "string>?" => textTest fun s t => decide (t < s)
  | "string<=?" => textTest fun s t => decide (¬ t < s)
  | "string>=?" => textTest fun s t => decide (¬ s < t)
  | "number->string" => fun
    | [] => .error
    | [.num n] => if Word n ∧ Word (-n) then .val (.str (toString n)) else .unknown
    | [_] => .error
    | _ => .unknown
  | "member" => binary fun v l =>
    match l.elems with
    | some vs => firstTail (sameDatum v) vs
    | none => .unknown
  | "assoc" => binary fun v l =>
    match l.elems with
    | some vs => firstEntry (sameDatum v) vs
    | none => .unknown
  | "acons" => ternary fun k v l => .val (.pair (.pair k v) l)
  | "gcd" => onInts fun ns => if ∀ n ∈ ns, Word n ∧ Word (-n) then .val (.num (ns.foldl (fun g n => Nat.gcd g n.natAbs) 0 : Nat)) else .unknown
  | "lcm" => onInts fun ns => if ∀ n ∈ ns, Word n ∧ Word (-n) then multiples 1 ns else .unknown
  | _ => fun _ => .unknown

/-- The names of these builtins. -/
def stdNames : List Name :=
  ["+", "*", "-", "=", "<", ">", "<=", ">=", "zero?", "positive?", "negative?", "even?", "odd?", "quotient", "remainder", "modulo",
   "cons", "car", "cdr", "list", "null?", "pair?", "not", "length", "reverse", "append", "cadr", "cddr", "caddr", "eq?", "eqv?", "equal?", "memq", "memv", "assq", "assv",
   "list-tail", "list-ref", "symbol?", "boolean?", "procedure?", "string?", "char?", "number?", "integer?", "list?", "abs", "max", "min",
   "char->integer", "integer->char", "char=?", "char<?", "char>?", "char<=?", "char>=?", "symbol->string", "string->symbol", "string-length", "string-ref", "substring", "string-append", "string=?", "string->list", "list->string", "string",
   "char-upcase", "char-downcase", "char-alphabetic?", "char-numeric?", "char-whitespace?", "char-upper-case?", "char-lower-case?", "char-ci=?", "char-ci<?", "char-ci>?", "char-ci<=?", "char-ci>=?",
   "string<?", "string>?", "string<=?", "string>=?", "number->string", "member", "assoc", "acons", "gcd", "lcm"]

/-- Scheme with these builtins. -/
def standard : Builtins := ⟨fun x => stdNames.contains x, stdAp, fun _ _ => []⟩

end Pscm.Ref
