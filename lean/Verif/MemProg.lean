import Verif.MemNum
/-!
# Programs of calls that end with an error
-/
namespace Pscm

/-- The C functions of a program called one after the other (as in `LinesRun`) until one of them reports an error, or there is no function for the number of arguments given (this is
reported before the call, `throw_wrong_number_of_args`, src/c/function.cc:33-75; the arities are those of `registry`, as the lemma `Ref.std_arity` says); `h'` is the heap then.  The lines before return normally. -/
inductive LinesFail (call : Nat → String → List Obj → Option (M Obj)) : Spec.Lines → List Obj → Heap → Heap → Prop
  | count {f : String} {is : List Nat} {ls : Spec.Lines} {os as : List Obj} {h : Heap} {fuel : Nat} : Spec.picks os is = some as → call fuel f as = none → LinesFail call ((f, is) :: ls) os h h
  | here {f : String} {is : List Nat} {ls : Spec.Lines} {os as : List Obj} {h h' : Heap} {fuel : Nat} {m : M Obj} {e : Err} :
      Spec.picks os is = some as → call fuel f as = some m → m h = (.err e, h') → LinesFail call ((f, is) :: ls) os h h'
  | later {f : String} {is : List Nat} {ls : Spec.Lines} {os as : List Obj} {h h1 h' : Heap} {fuel : Nat} {m : M Obj} {r : Obj} :
      Spec.picks os is = some as → call fuel f as = some m → m h = (.ok r, h1) → LinesFail call ls (os ++ [r]) h1 h' → LinesFail call ((f, is) :: ls) os h h'

end Pscm
