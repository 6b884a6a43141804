import Verif.Port
import Verif.ReaderProps
/-!
# C78 – C80: string ports
-/
namespace Pscm
open Port
open Rd (Bytes)

/-! ## C78: specification -/

/-- What a program does with an input port. -/
inductive InOp
  | read
  | peek
  | ready
  | close

/-- What it sees. -/
inductive InSeen
  /-- a character or the end-of-file object -/
  | char (c : Option UInt8)
  | bool (b : Bool)
  | unspecified
  deriving DecidableEq

/-- The same on a plain sequence: `rest` are the bytes that are left; a closed port has none. -/
def specIn (rest : Bytes) : InOp → InSeen × Bytes
  | .read => (.char rest.head?, rest.tail)
  | .peek => (.char rest.head?, rest)
  | .ready => (.bool (!rest.isEmpty), rest)
  | .close => (.unspecified, [])

def specRun (rest : Bytes) : List InOp → List InSeen
  | [] => []
  | o :: os => (specIn rest o).1 :: specRun (specIn rest o).2 os

/-- The operations of the program. -/
def portIn (p : In) : InOp → InSeen × In
  | .read => (.char (readChar p).1, (readChar p).2)
  | .peek => (.char (peekChar p), p)
  | .ready => (.bool (charReady p), p)
  | .close => (.unspecified, closeIn p)

def portRun (p : In) : List InOp → List InSeen
  | [] => []
  | o :: os => (portIn p o).1 :: portRun (portIn p o).2 os

/-- The bytes that are left. -/
def left (p : In) : Bytes := if p.closed then [] else p.data.drop p.pos

theorem drop_facts (l : Bytes) (n : Nat) : (l.drop n).head? = (if n ≥ l.length then none else some (l.getD n 0)) ∧
    (l.drop n).tail = l.drop (n + 1) ∧ ((l.drop n).isEmpty = decide (l.length ≤ n)) := by
  refine ⟨?_, by simp, ?_⟩
  · rw [List.head?_drop]
    by_cases h : n ≥ l.length
    · rw [if_pos h, List.getElem?_eq_none h]
    · rw [if_neg h, List.getD_eq_getElem?_getD, List.getElem?_eq_getElem (by omega)]
      rfl
  · by_cases h : l.length ≤ n
    · simp [h]
    · simp [h]

theorem portIn_spec (p : In) (o : InOp) : (portIn p o).1 = (specIn (left p) o).1 ∧ left (portIn p o).2 = (specIn (left p) o).2 := by
  obtain ⟨data, pos, closed⟩ := p
  obtain ⟨h1, h2, h3⟩ := drop_facts data pos
  cases closed
  · cases o
    · by_cases h : pos ≥ data.length
      · have : data.drop pos = [] := List.drop_eq_nil_of_le h
        simp [portIn, specIn, left, readChar, h, this]
      · simp only [portIn, specIn, left, readChar, h1, h2, if_neg h, Bool.false_eq_true, if_false, and_self]
    · simp [portIn, specIn, left, peekChar, h1]
    · refine ⟨?_, rfl⟩
      simp only [portIn, specIn, left, charReady, Bool.false_eq_true, if_false, h3]
      congr 1
      by_cases h : data.length ≤ pos
      · simp [h]
      · simp [h, Nat.lt_of_not_le h]
    · simp [portIn, specIn, left, closeIn]
  · cases o <;> simp [portIn, specIn, left, readChar, peekChar, charReady, closeIn]

/-- Every sequence of operations on a port on a string sees what it would see on the sequence of the string's bytes. -/
theorem c78_operations (s : Bytes) (ops : List InOp) : portRun (openIn s) ops = specRun s ops := by
  have key : ∀ (ops : List InOp) (p : In), portRun p ops = specRun (left p) ops := by
    intro ops
    induction ops with
    | nil => intro p; rfl
    | cons o os ih =>
      intro p
      obtain ⟨h1, h2⟩ := portIn_spec p o
      rw [portRun, specRun, h1, ih, h2]
  have := key ops (openIn s)
  simpa [left, openIn] using this

/-- Reading `k` times gives the bytes in order and then the end-of-file object for ever. -/
theorem c78_read_all (s : Bytes) (k : Nat) :
    portRun (openIn s) (List.replicate k .read) =
      ((s.take k).map fun c => .char (some c)) ++ List.replicate (k - s.length) (.char none) := by
  rw [c78_operations]
  induction k generalizing s with
  | zero => simp [specRun]
  | succ k ih =>
    rw [List.replicate_succ, specRun]
    cases s with
    | nil => simp [specIn, ih, List.replicate_succ]
    | cons c t => simp [specIn, ih]

/-- Peeking changes nothing, and shows what the next `read-char` returns. -/
theorem c78_peek (s : Bytes) (before after : List InOp) :
    ∃ c, portRun (openIn s) (before ++ .peek :: .read :: after) =
      portRun (openIn s) before ++ c :: (portRun (openIn s) (before ++ .read :: after)).drop before.length ∧
      (portRun (openIn s) (before ++ .read :: after)).drop before.length = c :: (portRun (openIn s) (before ++ .read :: after)).drop (before.length + 1) := by
  simp only [c78_operations]
  induction before generalizing s with
  | nil => exact ⟨.char s.head?, by simp [specRun, specIn], by simp [specRun, specIn]⟩
  | cons o os ih =>
    obtain ⟨c, h1, h2⟩ := ih (specIn s o).2
    refine ⟨c, ?_, ?_⟩
    · simp only [List.cons_append, specRun, h1, List.length_cons, List.drop_succ_cons]
    · simpa [specRun] using h2

example : portRun (openIn [104, 105]) [.peek, .read, .ready, .read, .ready, .read, .peek] =
    [.char (some 104), .char (some 104), .bool true, .char (some 105), .bool false, .char none, .char none] := by decide

/-! ## C79 -/

/-- What a program writes to an output port. -/
inductive OutOp
  | char (c : UInt8)
  | newline
  | display (d : Rd.D)
  | write (d : Rd.D)
  | close

/-- The text that should be added. -/
def OutOp.text (F : Rd.FloIO) : OutOp → Bytes
  | .char c => [c]
  | .newline => [10]
  | .display d => Rd.print F false d
  | .write d => Rd.print F true d
  | .close => []

/-- Everything written before the port is closed. -/
def written (F : Rd.FloIO) : List OutOp → Bytes
  | [] => []
  | .close :: _ => []
  | o :: os => o.text F ++ written F os

def portOut (F : Rd.FloIO) (p : Out) : OutOp → Res Out
  | .char c => writeChar p c
  | .newline => Port.newline p
  | .display d => Port.display F p d
  | .write d => Port.write F p d
  | .close => .ok (closeOut p)

def portOuts (F : Rd.FloIO) (p : Out) : List OutOp → Res Out
  | [] => .ok p
  | o :: os => (portOut F p o).bind fun p => portOuts F p os

/-- The state of an open port on which `w` was written. -/
structure Holds (p : Out) (w : Bytes) : Prop where
  len : p.len = w.length
  room : w.length < p.buf.length
  data : p.buf.take w.length = w
  opened : p.closed = false
  cap : 256 ≤ p.buf.length ∧ p.buf.length < 2 ^ 31 ∧ (p.buf.length = 256 ∨ p.buf.length ≤ 2 * (w.length + 1))

theorem take_set_ge (l : Bytes) (n i : Nat) (c : UInt8) (h : n ≤ i) : (l.set i c).take n = l.take n := by
  rw [List.take_set_of_le h]

theorem take_set_snoc (l : Bytes) (n : Nat) (c : UInt8) (h : n < l.length) : (l.set n c).take (n + 1) = l.take n ++ [c] := by
  rw [List.take_succ_eq_append_getElem (by simpa using h), take_set_ge _ _ _ _ (Nat.le_refl n)]
  simp

theorem store_ok {p : Out} {i : Nat} {c : UInt8} (h : i < p.buf.length) : store p i c = .ok { p with buf := p.buf.set i c } := by
  rw [store, if_pos h]

theorem double_ok {p : Out} (h0 : 0 < p.buf.length) (h : p.buf.length * 2 < 2 ^ 31) :
    double p = .ok { p with buf := p.buf ++ List.replicate p.buf.length 0 } := by
  rw [double, if_neg (by omega), if_pos h]

theorem writeChar_holds {p : Out} {w : Bytes} {c : UInt8} (H : Holds p w) (hb : w.length + 2 < 2 ^ 30) :
    ∃ p', writeChar p c = .ok p' ∧ Holds p' (w ++ [c]) := by
  have fin : ∀ q : Out, q.len = w.length → w.length + 1 < q.buf.length → q.buf.take w.length = w → q.closed = false →
      256 ≤ q.buf.length ∧ q.buf.length < 2 ^ 31 ∧ (q.buf.length = 256 ∨ q.buf.length ≤ 2 * (w.length + 1 + 1)) →
      ∃ p', ((store q q.len c).bind fun p => store { p with len := p.len + 1 } (p.len + 1) 0) = .ok p' ∧ Holds p' (w ++ [c]) := by
    intro q h1 h2 h3 h4 h5
    rw [store_ok (by omega)]
    refine ⟨_, store_ok (by simp; omega), ⟨by simp [h1], by simp; omega, ?_, h4, by simpa using h5⟩⟩
    rw [List.length_append, List.length_singleton, take_set_ge _ _ _ _ (by simp [h1]), h1]
    dsimp only
    rw [take_set_snoc _ _ _ (by omega), h3]
  unfold writeChar
  rw [if_neg (by simp [H.opened])]
  by_cases hg : p.len + 1 ≥ p.buf.length
  · rw [if_pos hg]
    have := H.room; have := H.len; have := H.cap
    rw [double_ok (by omega) (by omega)]
    refine fin { p with buf := p.buf ++ List.replicate p.buf.length 0 } H.len (by simp; omega) ?_ H.opened (by simp; omega)
    dsimp only
    rw [List.take_append_of_le_length (by omega), H.data]
  · rw [if_neg hg]
    have := H.len; have := H.cap
    exact fin p H.len (by omega) H.data H.opened (by omega)

theorem growFor_ok (w : Bytes) (n : Nat) : ∀ (fuel : Nat) (p : Out), p.len = w.length → w.length < p.buf.length → p.buf.take w.length = w →
    p.closed = false → 256 ≤ p.buf.length ∧ p.buf.length < 2 ^ 31 ∧ (p.buf.length = 256 ∨ p.buf.length ≤ 2 * (w.length + n + 1)) →
    w.length + n + 1 < 2 ^ 30 → 2 ^ 31 ≤ p.buf.length * 2 ^ fuel →
    ∃ q, growFor p n (fuel + 1) = .ok q ∧ q.len = w.length ∧ w.length + n + 1 < q.buf.length ∧ q.buf.take w.length = w ∧ q.closed = false ∧
      256 ≤ q.buf.length ∧ q.buf.length < 2 ^ 31 ∧ (q.buf.length = 256 ∨ q.buf.length ≤ 2 * (w.length + n + 1)) := by
  intro fuel
  induction fuel with
  | zero =>
    intro p h1 h2 h3 h4 h5 hn hf
    omega
  | succ fuel ih =>
    intro p h1 h2 h3 h4 h5 hn hf
    unfold growFor
    rw [if_pos (by omega)]
    by_cases hg : p.len + n + 1 ≥ p.buf.length
    · rw [if_pos hg, double_ok (by omega) (by omega)]
      have hlen : (p.buf ++ List.replicate p.buf.length 0).length = p.buf.length * 2 := by simp; omega
      have hf' : 2 ^ 31 ≤ p.buf.length * 2 * 2 ^ fuel := by
        rw [Nat.pow_succ] at hf
        rw [Nat.mul_assoc, Nat.mul_comm 2]; exact hf
      refine ih { p with buf := p.buf ++ List.replicate p.buf.length 0 } h1 (by dsimp only; rw [hlen]; omega) ?_ h4 (by dsimp only; rw [hlen]; omega) hn
        (by dsimp only; rw [hlen]; exact hf')
      dsimp only
      rw [List.take_append_of_le_length (by omega), h3]
    · rw [if_neg hg]
      exact ⟨p, rfl, h1, by omega, h3, h4, by omega⟩

theorem storeAll_ok (t : Bytes) : ∀ (p : Out) (w : Bytes), w.length + t.length < p.buf.length → p.buf.take w.length = w →
    ∃ b, storeAll p w.length t = .ok { p with buf := b } ∧ b.length = p.buf.length ∧ b.take (w.length + t.length) = w ++ t := by
  induction t with
  | nil => intro p w _ h; exact ⟨p.buf, rfl, rfl, by simpa using h⟩
  | cons c t ih =>
    intro p w hl h
    simp only [List.length_cons] at hl
    unfold storeAll
    rw [store_ok (by omega)]
    obtain ⟨b, h1, h2, h3⟩ := ih { p with buf := p.buf.set w.length c } (w ++ [c]) (by simp; omega)
      (by rw [List.length_append, List.length_singleton]; dsimp only; rw [take_set_snoc _ _ _ (by omega), h])
    refine ⟨b, ?_, by simpa using h2, ?_⟩
    · simpa using h1
    · rw [List.length_append, List.length_singleton] at h3
      rw [List.length_cons, show w.length + (t.length + 1) = w.length + 1 + t.length by omega, h3]
      simp

theorem writeString_holds {p : Out} {w s : Bytes} (H : Holds p w) (h0 : (0 : UInt8) ∉ s) (hb : w.length + s.length + 1 < 2 ^ 30) :
    ∃ p', writeString p s = .ok p' ∧ Holds p' (w ++ s) := by
  have hc := H.cap
  unfold writeString
  rw [if_neg (by simp [H.opened])]
  dsimp only
  rw [Rd.cstr_self h0]
  obtain ⟨q, g1, g2, g3, g4, g5, g6⟩ := growFor_ok w s.length 39 p H.len H.room H.data H.opened (by omega) hb (by omega)
  rw [g1]
  obtain ⟨b, e1, e2, e3⟩ := storeAll_ok s q w (by omega) g4
  show ∃ p', ((storeAll q q.len s).bind _) = _ ∧ _
  rw [g2, e1]
  refine ⟨_, store_ok (by dsimp only; omega), ⟨by simp [g2], by simp; omega, ?_, g5, by simp; omega⟩⟩
  rw [List.length_append]
  dsimp only
  rw [g2, take_set_ge _ _ _ _ (Nat.le_refl _), e3]

theorem openOut_holds : Holds openOut [] := by
  have h : openOut.buf.length = 256 := by simp only [openOut, List.length_replicate]
  exact ⟨rfl, by rw [h]; decide, rfl, rfl, by rw [h]; omega⟩

theorem closed_outs (F : Rd.FloIO) (ops : List OutOp) : ∀ (p : Out), p.closed = true → portOuts F p ops = .ok p := by
  induction ops with
  | nil => intro p _; rfl
  | cons o os ih =>
    intro p hp
    have : portOut F p o = .ok p := by
      cases o <;> simp [portOut, writeChar, Port.newline, Port.display, Port.write, writeString, closeOut, hp]
    rw [portOuts, this]
    exact ih p hp

/-- `get-output-string` returns exactly what was written, for every sequence of writes whose printed forms contain no NUL, up to 2^30 - 2
bytes; and the writes stay inside the buffer. -/
theorem c79_output_partial (F : Rd.FloIO) (ops : List OutOp) (hn : ∀ o ∈ ops, ∀ c, o ≠ .char c → (0 : UInt8) ∉ o.text F)
    (hl : (written F ops).length + 1 < 2 ^ 30) : ∃ p, portOuts F openOut ops = .ok p ∧ getOutput p = written F ops := by
  have key : ∀ (ops : List OutOp) (p : Out) (w : Bytes), Holds p w → (∀ o ∈ ops, ∀ c, o ≠ .char c → (0 : UInt8) ∉ o.text F) →
      w.length + (written F ops).length + 1 < 2 ^ 30 → ∃ q, portOuts F p ops = .ok q ∧ getOutput q = w ++ written F ops := by
    intro ops
    induction ops with
    | nil =>
      intro p w H _ _
      exact ⟨p, rfl, by simp [getOutput, written, H.len, H.data]⟩
    | cons o os ih =>
      intro p w H hn hl
      have next : ∀ t : Bytes, written F (o :: os) = t ++ written F os → (∃ q, portOut F p o = .ok q ∧ Holds q (w ++ t)) →
          ∃ q, portOuts F p (o :: os) = .ok q ∧ getOutput q = w ++ written F (o :: os) := by
        rintro t ht ⟨q, hq, Hq⟩
        rw [ht] at hl ⊢
        rw [portOuts, hq]
        obtain ⟨r, hr, hg⟩ := ih q (w ++ t) Hq (fun o ho => hn o (.tail _ ho)) (by rw [List.length_append] at hl ⊢; omega)
        exact ⟨r, hr, by rw [hg, List.append_assoc]⟩
      cases o with
      | char c =>
        refine next [c] rfl (writeChar_holds H ?_)
        simp [written, OutOp.text] at hl; omega
      | newline =>
        refine next [10] rfl (writeChar_holds H ?_)
        simp [written, OutOp.text] at hl; omega
      | display d =>
        refine next (Rd.print F false d) rfl (writeString_holds H (hn _ (.head _) 0 (by simp)) ?_)
        simp [written, OutOp.text] at hl; omega
      | write d =>
        refine next (Rd.print F true d) rfl (writeString_holds H (hn _ (.head _) 0 (by simp)) ?_)
        simp [written, OutOp.text] at hl; omega
      | close =>
        refine ⟨closeOut p, ?_, ?_⟩
        · rw [portOuts]
          exact closed_outs F os _ (by simp [closeOut, H.opened])
        · simp [closeOut, H.opened, getOutput, written, H.len, H.data]
  exact key ops openOut [] openOut_holds hn (by simpa using hl)

def outText : Res Out → Option Bytes
  | .ok p => some (getOutput p)
  | _ => none

theorem outText_some {r : Res Out} {w : Bytes} (h : outText r = some w) : ∃ p, r = .ok p ∧ getOutput p = w := by
  cases r with
  | ok p => exact ⟨p, rfl, by simpa [outText] using h⟩
  | _ => cases h

/-- The printed form of a NUL character is lost. -/
theorem c79_nul_counterexample : (∃ p, portOuts Demo.F0 openOut [.display (.chr 0), .char 97] = .ok p ∧ getOutput p = [97]) ∧
    written Demo.F0 [.display (.chr 0), .char 97] = [0, 97] :=
  ⟨outText_some (by decide +kernel), rfl⟩

/-- A character written when the buffer of 2^30 bytes is full overflows the capacity. -/
theorem c79_overflow_counterexample {p : Out} {c : UInt8} (ho : p.closed = false) (hc : p.buf.length = 2 ^ 30) (hl : p.len + 1 = 2 ^ 30) :
    writeChar p c = .ub := by
  have : double p = .ub := by rw [double, if_neg (by omega), if_neg (by omega)]
  unfold writeChar
  rw [if_neg (by simp [ho]), if_pos (by omega), this]
  rfl

example : ∃ p, portOuts Demo.F0 openOut [.char 104, .write (.str [104, 34]), .newline, .display (.pair (.num 1) (.pair (.num (-2)) .nil)), .close, .char 99] = .ok p ∧
    getOutput p = Rd.asc "h\"h\\\"\"\n(1 -2)" := outText_some (by decide +kernel)

end Pscm
