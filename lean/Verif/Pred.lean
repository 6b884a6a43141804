import Verif.Str
import Verif.Vector
/-!
# Type predicates — model of `src/c/predicate.cc` (without `list?`, see `ListM`) and `char?`, `eof-object?`, `port?`-like tests

The C++ predicates look at the `type` field only (`SCM::Type`), never at the heap, and return one of the boolean singletons.
-/
namespace Pscm.Pred

/-- `scm_c_type_check`, src/c/predicate.cc:6-9: the boolean singleton for the outcome of the test. -/
def check (p : Ty → Bool) (o : Obj) : M Obj := pure (Obj.ofBool (p o.v.ty))

/-- `scm_c_is_procedure`, src/c/predicate.cc:11-13. -/
def isProcedure := check fun t => t == .other .proc || t == .other .cont || t == .other .func
/-- `scm_c_is_boolean`, src/c/predicate.cc:15-17. -/
def isBoolean := check fun t => t == .bool
/-- `scm_c_is_null`, src/c/predicate.cc:19-21. -/
def isNull := check fun t => t == .nil
/-- `scm_c_is_pair`, src/c/predicate.cc:23-25. -/
def isPair := check fun t => t == .list
/-- `scm_c_is_number`, src/c/predicate.cc:27-29. -/
def isNumber := check fun t => t == .num || t == .float || t == .ratio
/-- `scm_c_is_complex`, src/c/predicate.cc:31-35. -/
def isComplex := check fun t => t == .num || t == .float || t == .ratio
/-- `scm_c_is_real`, src/c/predicate.cc:37-41. -/
def isReal := check fun t => t == .num || t == .float || t == .ratio
/-- `scm_c_is_rational`, src/c/predicate.cc:43-47. -/
def isRational := check fun t => t == .num || t == .ratio
/-- `scm_c_is_integer`, src/c/predicate.cc:49-53. -/
def isInteger := check fun t => t == .num
/-- `scm_c_is_exact`, src/c/predicate.cc:55-59. -/
def isExact := check fun t => t == .num || t == .ratio
/-- `scm_c_is_inexact`, src/c/predicate.cc:61-65. -/
def isInexact := check fun t => t == .float
/-- `scm_c_is_string`, src/c/predicate.cc:67-69. -/
def isString := check fun t => t == .str
/-- `scm_c_is_symbol`, src/c/predicate.cc:71-73. -/
def isSymbol := check fun t => t == .sym
/-- `scm_c_is_vector`, src/c/predicate.cc:75-77. -/
def isVector := check fun t => t == .vector
/-- `scm_c_is_char`, src/c/char.cc:5-7. -/
def isChar := check fun t => t == .chr
/-- `scm_c_is_hash_table`/`scm_c_is_promise`/… have no Scheme name; `scm_c_not`, src/c/predicate.cc:119-126, with `is_falsy`,
src/c/pscm.h:67-72 (a null argument does not occur). -/
def not (o : Obj) : M Obj := pure (if o.v = .bool false then Obj.t else Obj.f)
/-- `scm_c_noop`, src/c/predicate.cc:128-130. -/
def noop : M Obj := pure Obj.f

/-- `init_predicate` and `init_char` (the entry for `char?`), src/c/predicate.cc:132-151, src/c/char.cc:243-264: the one-argument
predicates by their Scheme names; `list?` is `isListP` (module `ListM`). -/
def builtin : String → Option (Obj → M Obj)
  | "procedure?" => some isProcedure
  | "boolean?" => some isBoolean
  | "null?" => some isNull
  | "pair?" => some isPair
  | "number?" => some isNumber
  | "complex?" => some isComplex
  | "real?" => some isReal
  | "rational?" => some isRational
  | "integer?" => some isInteger
  | "exact?" => some isExact
  | "inexact?" => some isInexact
  | "string?" => some isString
  | "symbol?" => some isSymbol
  | "vector?" => some isVector
  | "char?" => some isChar
  | "not" => some not
  | _ => none

end Pscm.Pred
