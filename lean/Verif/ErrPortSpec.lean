import Verif.Ports
/-!
# The vocabulary of C144
-/
namespace Pscm
open Ports
open Rd (Bytes asc)

/-- The lines around the call stack. -/
def stackHead : Bytes := asc "\n=== Evaluation Call Stack ===\n"

/-- See `stackHead`. -/
def stackFoot : Bytes := asc "=== End of Call Stack ===\n"

/-- The operations of a program that displays the report on the port `i`, and the call stack on the standard error (port 0). -/
def reporting (i : Nat) (m : Bytes) : Option Bytes → List Op
  | none => [.print false (.str m) (.port i), .flush (.port i)]
  | some t => [.print false (.str m) (.port i), .flush (.port i), .print false (.str stackHead) (.port i), .print false (.str t) (.port 0),
      .print false (.str stackFoot) (.port i), .flush (.port i)]

/-- The text of the report for the error port. -/
def reportText (m : Bytes) : Option Bytes → Bytes
  | none => m
  | some _ => m ++ (stackHead ++ stackFoot)


/-! The state of the standard error. -/
namespace Ports
variable {σ : Type}

/-- The stream is open. -/
def Live (s : PS σ) (k : Nat) : Prop := ∃ f, s.streams[k]? = some f ∧ f.isOpen = true

/-- The port 0 is still open on the standard error. -/
def StdErr (s : PS σ) : Prop :=
  ∃ p, s.ports[0]? = some p ∧ p.kind = .fileOut ∧ p.isInput = false ∧ p.closed = false ∧ p.file = some 2 ∧ Live s 2

end Ports

end Pscm
