import Verif.Ports
import Verif.PortProps
/-!
# The vocabulary of C103 – C107
-/
namespace Pscm
open Ports
open Rd (Bytes)
open Port (In Out)

variable {σ : Type}

/-- A state some program has reached from the start. -/
def AfterProgram (W : World σ) (s : PS σ) : Prop := ∃ files stdin u before as, runs W (initial files stdin u) before = some (as, s)

/-- The port an operation reads, writes, closes or asks about. -/
def addressee : Op → Option Nat
  | .readChar (.port i) | .peekChar (.port i) | .read (.port i) | .ready (.port i) | .writeChar _ (.port i) | .print _ _ (.port i)
  | .newline (.port i) | .flush (.port i) | .getOutput (.port i) | .closeIn (.port i) | .closeOut (.port i) | .isIn (.port i)
  | .isOut (.port i) => some i
  | _ => none

/-- The operations of a program that address the port `i`. -/
def opsOn (i : Nat) (ops : List Op) : List Op := ops.filter fun o => addressee o == some i

/-- The answers to these operations. -/
def answersOn {α : Type} (i : Nat) : List Op → List α → List α
  | o :: os, a :: as => if addressee o == some i then a :: answersOn i os as else answersOn i os as
  | _, _ => []

/-- An operation of `C78` on the port `i`. -/
def inOp (i : Nat) : InOp → Op
  | .read => .readChar (.port i)
  | .peek => .peekChar (.port i)
  | .ready => .ready (.port i)
  | .close => .closeIn (.port i)

/-- What the program sees. -/
def seenAs : InSeen → Option Ans
  | .char (some c) => some (.char c)
  | .char none => some .eof
  | .bool b => some (.bool b)
  | .unspecified => some .unspecified

/-- What is sent to the port `i` before it is closed. -/
def sentTo (F : Rd.FloIO) (i : Nat) : List Op → Bytes
  | [] => []
  | .closeOut (.port j) :: os => if j = i then [] else sentTo F i os
  | .writeChar c (.port j) :: os => if j = i then c :: sentTo F i os else sentTo F i os
  | .print m d (.port j) :: os => if j = i then Rd.print F m d ++ sentTo F i os else sentTo F i os
  | .newline (.port j) :: os => if j = i then 10 :: sentTo F i os else sentTo F i os
  | _ :: os => sentTo F i os

/-- No output port is open on the file. -/
def NotBeingWritten (s : PS σ) (name : Bytes) : Prop :=
  ∀ (j : Nat) (p : PortRec) (k : Nat) (f : Ports.Stream), s.ports[j]? = some p → p.kind = .fileOut → p.file = some k →
    s.streams[k]? = some f → f.path ≠ name

end Pscm
