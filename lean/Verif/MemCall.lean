import Verif.Alist
import Verif.Pred
import Verif.MemDataSpec
/-!
# The list builtins by name

`scm_define_function` and `scm_define_vararg_function` in `init_list` (src/c/list.cc:569-589), `init_alist` (src/c/alist.cc:266-276), `init_eq` (src/c/eq.cc:393-397) and
`init_predicate` (src/c/predicate.cc:132-153): the C function behind a name, for the number of arguments it is called with (other numbers are rejected before the call,
src/c/function.cc).
-/
namespace Pscm

/-- The result of a test as an object (`bool_to_scm`, src/c/pscm.h:229-231). -/
def testObj (t : Heap → Res Bool) : M Obj := do
  let b ← M.read t
  pure (Obj.ofBool b)

/-- The C function of a builtin on its arguments; `none`: another builtin or another number of arguments. -/
def memCall (F : FArith) (fuel : Nat) : String → List Obj → Option (M Obj)
  | "cons", [x, d] => some (cons fuel x d)
  | "car", [p] => some (car p)
  | "cdr", [p] => some (cdr p)
  | "cadr", [p] => some (cadr p)
  | "cddr", [p] => some (cddr p)
  | "caddr", [p] => some (caddr p)
  | "list", xs => some (list xs)
  | "length", [l] => some (length fuel l)
  | "reverse", [l] => some (reverse fuel l)
  | "append", ls => some (append fuel ls)
  | "list-tail", [l, k] => some (listTail fuel l k)
  | "list-ref", [l, k] => some (listRef fuel l k)
  | "list?", [o] => some (isListP fuel o)
  | "eq?", [a, b] => some (testObj fun h => eqP F h a b)
  | "eqv?", [a, b] => some (testObj fun h => eqvP F h a b)
  | "equal?", [a, b] => some (testObj fun h => equalP F h fuel a b)
  | "memq", [x, l] => some (memq F fuel x l)
  | "memv", [x, l] => some (memv F fuel x l)
  | "member", [x, l] => some (member F fuel x l)
  | "assq", [k, l] => some (assq fuel k l)
  | "assv", [k, l] => some (assv F fuel k l)
  | "assoc", [k, l] => some (assoc F fuel k l)
  | "acons", [k, v, l] => some (acons fuel k v l)
  | name, [o] => (Pred.builtin name).map (· o)
  | _, _ => none

/-- The C functions (`call`: what is behind a name) of a program called one after the other, as the evaluator does for nested calls or a sequence of definitions: from the objects `os` and the heap `h` the run reaches
the objects `os'` and the heap `h'`.  (A call of which the loops end with some fuel.) -/
inductive LinesRun (call : Nat → String → List Obj → Option (M Obj)) : Spec.Lines → List Obj → Heap → List Obj → Heap → Prop
  | done {os : List Obj} {h : Heap} : LinesRun call [] os h os h
  | line {f : String} {is : List Nat} {ls : Spec.Lines} {os as os' : List Obj} {h h1 h' : Heap} {fuel : Nat} {m : M Obj} {r : Obj} :
      Spec.picks os is = some as → call fuel f as = some m → m h = (.ok r, h1) → LinesRun call ls (os ++ [r]) h1 os' h' → LinesRun call ((f, is) :: ls) os h os' h'

end Pscm
