import Verif.RefStd
/-!
# The meaning of `display`, `write` and `newline`

Also a specification: the standard builtins (`RefStd`), and the three procedures that print, without a port.
-/
namespace Pscm.Ref

/-- The procedures that print. -/
def outNames : List Name := ["display", "write", "newline"]

/-- Their results; with a port they have no meaning here. -/
def outAp : Name → List Val → Ret Val
  | "display", [_] => .val .unspecified
  | "write", [_] => .val .unspecified
  | "newline", [] => .val .unspecified
  | "display", [] => .error
  | "write", [] => .error
  | _, _ => .unknown

/-- What they print. -/
def outPrints : Name → List Val → List Event
  | "display", [v] => [.display v]
  | "write", [v] => [.write v]
  | "newline", [] => [.newline]
  | _, _ => []

/-- Scheme with the standard builtins and these. -/
def printing : Builtins where
  dom := fun x => stdNames.contains x || outNames.contains x
  ap := fun x vs => if x ∈ outNames then outAp x vs else stdAp x vs
  prints := outPrints

end Pscm.Ref
