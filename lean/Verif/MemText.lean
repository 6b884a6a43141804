import Verif.MemCall
import Verif.Str
/-!
# The builtins on characters and strings by name

`init_string` (src/c/string.cc:1107-1132), `init_char` (src/c/char.cc:243-264) and `init_symbol` (src/c/symbol.cc:124-128): the C function behind a name, for the number of arguments it is
called with.
-/
namespace Pscm

/-- The result of a test of the string functions as an object. -/
def answer (t : M Bool) : M Obj := do
  let b ← t
  pure (Obj.ofBool b)

/-- A test of characters, which looks at no memory. -/
def charAnswer (t : Res Bool) : M Obj := answer (M.lift t)

/-- The C function of a builtin on its arguments; `none`: another builtin or another number of arguments. -/
def textMem (T : FText) (fuel : Nat) : String → List Obj → Option (M Obj)
  | "char->integer", [x] => some (charToInteger x)
  | "integer->char", [x] => some (integerToChar x)
  | "char-upcase", [x] => some (charUpcase x)
  | "char-downcase", [x] => some (charDowncase x)
  | "char=?", [x, y] => some (charAnswer (charEq x y))
  | "char<?", [x, y] => some (charAnswer (charLt x y))
  | "char>?", [x, y] => some (charAnswer (charGt x y))
  | "char<=?", [x, y] => some (charAnswer (charLe x y))
  | "char>=?", [x, y] => some (charAnswer (charGe x y))
  | "char-ci=?", [x, y] => some (charAnswer (charCiEq x y))
  | "char-ci<?", [x, y] => some (charAnswer (charCiLt x y))
  | "char-ci>?", [x, y] => some (charAnswer (charCiGt x y))
  | "char-ci<=?", [x, y] => some (charAnswer (charCiLe x y))
  | "char-ci>=?", [x, y] => some (charAnswer (charCiGe x y))
  | "char-alphabetic?", [x] => some (charAnswer (charAlphabetic x))
  | "char-numeric?", [x] => some (charAnswer (charNumeric x))
  | "char-whitespace?", [x] => some (charAnswer (charWhitespace x))
  | "char-upper-case?", [x] => some (charAnswer (charUpperCase x))
  | "char-lower-case?", [x] => some (charAnswer (charLowerCase x))
  | "symbol->string", [x] => some (symbolToString x)
  | "string->symbol", [x] => some (stringToSymbol x)
  | "string-length", [x] => some (stringLength x)
  | "string-ref", [x, k] => some (stringRef x k)
  | "substring", [x, i, j] => some (substring x i j)
  | "string-append", xs => some (stringAppend xs)
  | "string", xs => some (string xs)
  | "string->list", [x] => some (stringToList x)
  | "list->string", [x] => some (listToString fuel x)
  | "string=?", [x, y] => some (answer (stringEq x y))
  | "string<?", [x, y] => some (answer (stringLt x y))
  | "string>?", [x, y] => some (answer (stringGt x y))
  | "string<=?", [x, y] => some (answer (stringLe x y))
  | "string>=?", [x, y] => some (answer (stringGe x y))
  | "number->string", xs => some (numberToString T xs)
  | _, _ => none

/-- The builtins of `memCall` and `textMem`. -/
def dataMem (F : FArith) (T : FText) (fuel : Nat) (name : String) (args : List Obj) : Option (M Obj) :=
  match memCall F fuel name args with
  | some m => some m
  | none => textMem T fuel name args

end Pscm
