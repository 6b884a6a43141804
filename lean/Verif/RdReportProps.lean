import Verif.RdReport
import Verif.RdPosProps
import Verif.DataProps2
/-!
# C125: the report of a parse error
-/
namespace Pscm.Rp
open Rd

variable {F : FloIO}

/-! ## Specification -/

/-- The lines of a text. -/
def lines : Bytes → List Bytes
  | [] => [[]]
  | b :: t => if b = 10 then [] :: lines t else match lines t with
    | [] => [[b]]
    | l :: ls => (b :: l) :: ls

/-- The line with number `n` (from 1), if the text has it and it has 1 to 199 bytes. -/
def showable (text : Bytes) (n : Nat) : Option (Nat × Bytes) :=
  if n = 0 then none else match (lines text)[n - 1]? with
    | some l => if 0 < l.length ∧ l.length < 200 then some (n, l) else none
    | none => none

/-! ## Proofs -/

theorem lines_ne (t : Bytes) : lines t ≠ [] := by
  cases t with
  | nil => simp [lines]
  | cons b t =>
    rw [lines]
    split
    · simp
    · split <;> simp

theorem lines_one (l : Bytes) (h : 10 ∉ l) : lines l = [l] := by
  induction l with
  | nil => rfl
  | cons b t ih =>
    rw [lines, if_neg (by rintro rfl; simp at h), ih (fun h' => h (by simp [h']))]

theorem lines_append (a b : Bytes) : lines (a ++ 10 :: b) = lines a ++ lines b := by
  induction a with
  | nil => simp [lines]
  | cons x t ih =>
    rw [List.cons_append, lines, lines, ih]
    split
    · rfl
    · cases h : lines t with
      | nil => exact absurd h (lines_ne t)
      | cons l ls => rfl

theorem lines_length (t : Bytes) : (lines t).length = lineOf t := by
  induction t with
  | nil => rfl
  | cons b t ih =>
    unfold lineOf at *
    rw [lines, List.count_cons]
    by_cases h : b = 10
    · rw [if_pos h, List.length_cons, ih]
      simp [h]
      omega
    · rw [if_neg h]
      have : (b == 10) = false := by simpa using h
      rw [this]
      cases h2 : lines t with
      | nil => exact absurd h2 (lines_ne t)
      | cons l ls => rw [h2] at ih; simpa using ih

/-- A text has no newline, or it has a last one. -/
theorem last_line (t : Bytes) : 10 ∉ t ∨ ∃ a l, t = a ++ 10 :: l ∧ 10 ∉ l := by
  induction t with
  | nil => left; simp
  | cons b t ih =>
    rcases ih with h | ⟨a, l, rfl, h⟩
    · by_cases hb : b = 10
      · exact .inr ⟨[], t, by rw [hb]; rfl, h⟩
      · exact .inl (by simp [h]; exact fun h => hb h.symm)
    · exact .inr ⟨b :: a, l, rfl, h⟩

theorem first_line (t : Bytes) : 10 ∉ t ∨ ∃ l a, t = l ++ 10 :: a ∧ 10 ∉ l := by
  induction t with
  | nil => left; simp
  | cons b t ih =>
    by_cases hb : b = 10
    · exact .inr ⟨[], t, by rw [hb]; rfl, by simp⟩
    · rcases ih with h | ⟨l, a, rfl, h⟩
      · exact .inl (by simp [h]; exact fun h => hb h.symm)
      · exact .inr ⟨b :: l, a, rfl, by simp [h]; exact fun h => hb h.symm⟩

theorem lineStart_at (text : Bytes) (a k : Nat) (hk : a ≤ k) (h : ∀ i, a ≤ i → i < k → text.getD i 0 ≠ 10) (h0 : a = 0 ∨ text.getD (a - 1) 0 = 10) :
    lineStart text k = a := by
  induction k with
  | zero => rw [Nat.le_zero.1 hk]; rfl
  | succ k ih =>
    rw [lineStart]
    by_cases e : a = k + 1
    · rcases h0 with h0 | h0
      · omega
      · rw [e] at h0
        rw [show text.getD k 0 = 10 from h0, if_neg (by simp), e]
    · rw [if_pos (by simpa using h k (by omega) (by omega))]
      exact ih (by omega) fun i h1 h2 => h i h1 (by omega)

theorem getD_mem {l : Bytes} {i : Nat} (h : i < l.length) : l.getD i 0 ∈ l := by
  rw [List.getD_eq_getElem?_getD, List.getElem?_eq_getElem h]
  exact List.getElem_mem h

theorem lineStart_none (pre suf : Bytes) (h : 10 ∉ pre) : lineStart (pre ++ suf) pre.length = 0 := by
  refine lineStart_at _ _ _ (by omega) (fun i _ h2 e => h ?_) (.inl rfl)
  rw [← e, List.getD_eq_getElem?_getD, List.getElem?_append_left h2, ← List.getD_eq_getElem?_getD]
  exact getD_mem h2

theorem lineStart_some (a l suf : Bytes) (h : 10 ∉ l) : lineStart (a ++ 10 :: (l ++ suf)) (a.length + 1 + l.length) = a.length + 1 := by
  refine lineStart_at _ _ _ (by omega) (fun i h1 h2 e => h ?_) (.inr ?_)
  · rw [List.getD_eq_getElem?_getD, List.getElem?_append_right (by omega), show i - a.length = (i - a.length - 1) + 1 by omega, List.getElem?_cons_succ,
      List.getElem?_append_left (by omega), ← List.getD_eq_getElem?_getD] at e
    rw [← e]
    exact getD_mem (by omega)
  · simp

theorem lineRun_some (l t : Bytes) (h : 10 ∉ l) (h0 : 0 ∉ l) (ht : t = [] ∨ ∃ a, t = 10 :: a) : lineRun (l ++ t) = l.length := by
  unfold lineRun
  induction l with
  | nil => rcases ht with rfl | ⟨a, rfl⟩ <;> rfl
  | cons b l ih =>
    have hb : b ≠ 10 := by rintro rfl; simp at h
    have hb0 : b ≠ 0 := by rintro rfl; simp at h0
    rw [List.cons_append, List.takeWhile_cons]
    have hc : (b != 0 && b != 10) = true := by simp [hb, hb0]
    simp only [hc, if_true, List.length_cons]
    rw [ih (fun h' => h (by simp [h'])) (fun h' => h0 (by simp [h']))]

theorem numbered_eq (n : Nat) (hn : n ≠ 0) (text l : Bytes) (h : (lines text)[n - 1]? = some l) : numbered n l = (showable text n).toList := by
  unfold numbered showable
  rw [if_neg hn, h]
  dsimp only
  split <;> rfl

theorem showable_none (n : Nat) (text : Bytes) (h : n = 0 ∨ (lines text)[n - 1]? = none) : showable text n = none := by
  unfold showable
  rcases h with h | h
  · rw [if_pos h]
  · rw [h]
    split <;> rfl

/-- The four parts of a text around a place: the lines before, the line up to the place, the rest of the line, the lines after. -/
theorem shown_cur (pre suf : Bytes) (h0 : 0 ∉ suf) : ∃ l, (lines (pre ++ suf))[lineOf pre - 1]? = some l ∧
    slice (pre ++ suf) (lineStart (pre ++ suf) pre.length) (pre.length + lineRun ((pre ++ suf).drop pre.length)) = l := by
  have hs : ∃ b t, suf = b ++ t ∧ 10 ∉ b ∧ (t = [] ∨ ∃ a, t = 10 :: a) := by
    rcases first_line suf with h | ⟨l, a, rfl, h⟩
    · exact ⟨suf, [], by simp, h, .inl rfl⟩
    · exact ⟨l, 10 :: a, rfl, h, .inr ⟨a, rfl⟩⟩
  obtain ⟨b, t, rfl, hb, ht⟩ := hs
  have hr : lineRun ((pre ++ (b ++ t)).drop pre.length) = b.length := by
    rw [List.drop_left]
    exact lineRun_some b t hb (fun h => h0 (by simp [h])) ht
  have hl : ∀ x : Bytes, 10 ∉ x → (lines (x ++ b ++ t))[0]? = some (x ++ b) := by
    intro x hx
    rcases ht with rfl | ⟨a, rfl⟩
    · rw [List.append_nil, lines_one _ (by simp [hx, hb])]; rfl
    · rw [lines_append, lines_one _ (by simp [hx, hb])]; rfl
  rw [hr]
  rcases last_line pre with h | ⟨a, x, rfl, h⟩
  · refine ⟨pre ++ b, ?_, ?_⟩
    · rw [show lineOf pre - 1 = 0 by unfold lineOf; rw [List.count_eq_zero.2 h], ← List.append_assoc]
      exact hl pre h
    · rw [lineStart_none _ _ h]
      unfold slice
      rw [List.drop_zero, Nat.sub_zero, ← List.append_assoc, ← List.length_append, List.take_left]
  · refine ⟨x ++ b, ?_, ?_⟩
    · have e : lineOf (a ++ 10 :: x) - 1 = (lines a).length := by
        rw [← lines_length, lines_append, lines_one x h]
        simp
      rw [e, List.append_assoc, List.cons_append, lines_append, List.getElem?_append_right (Nat.le_refl _), Nat.sub_self, ← List.append_assoc]
      exact hl x h
    · rw [show (a ++ 10 :: x).length = a.length + 1 + x.length by simp; omega, List.append_assoc, List.cons_append, lineStart_some _ _ _ h]
      unfold slice
      rw [show a ++ 10 :: (x ++ (b ++ t)) = (a ++ [10]) ++ (x ++ (b ++ t)) by simp, show a.length + 1 = (a ++ [10]).length by simp, List.drop_left,
        Nat.add_assoc, Nat.add_sub_cancel_left, ← List.length_append, ← List.append_assoc, List.take_left]

theorem shown_prev (pre suf : Bytes) (line : Nat) (hl : line = lineOf pre) : (if lineStart (pre ++ suf) pre.length > 0 then
      if lineStart (pre ++ suf) (lineStart (pre ++ suf) pre.length - 1) < lineStart (pre ++ suf) pre.length - 1 then
        numbered (line - 1) (slice (pre ++ suf) (lineStart (pre ++ suf) (lineStart (pre ++ suf) pre.length - 1)) (lineStart (pre ++ suf) pre.length - 1)) else []
    else []) = (showable (pre ++ suf) (line - 1)).toList := by
  subst hl
  rcases last_line pre with h | ⟨a, x, rfl, h⟩
  · rw [lineStart_none _ _ h, if_neg (by omega), showable_none _ _ (.inl (by unfold lineOf; rw [List.count_eq_zero.2 h]))]
    rfl
  · have e : lineOf (a ++ 10 :: x) - 1 = (lines a).length := by
      rw [← lines_length, lines_append, lines_one x h]
      simp
    rw [show (a ++ 10 :: x).length = a.length + 1 + x.length by simp; omega, List.append_assoc, List.cons_append, lineStart_some _ _ _ h, if_pos (by omega), e,
      Nat.add_sub_cancel]
    have hn : (lines a).length ≠ 0 := by rw [lines_length]; unfold lineOf; omega
    rcases last_line a with h2 | ⟨a2, y, rfl, h2⟩
    · rw [lineStart_none _ _ h2]
      have e2 : (lines (a ++ 10 :: (x ++ suf)))[(lines a).length - 1]? = some a := by
        rw [lines_append, lines_one a h2]
        rfl
      have e3 : slice (a ++ 10 :: (x ++ suf)) 0 a.length = a := by simp [slice]
      rw [e3]
      split
      · exact numbered_eq _ hn _ _ e2
      · rename_i hz
        have : a = [] := List.length_eq_zero_iff.1 (by omega)
        rw [← numbered_eq _ hn _ _ e2, this]
        rfl
    · have hst : lineStart (a2 ++ 10 :: y ++ 10 :: (x ++ suf)) (a2 ++ 10 :: y).length = a2.length + 1 := by
        rw [show (a2 ++ 10 :: y).length = a2.length + 1 + y.length by simp; omega, List.append_assoc, List.cons_append]
        exact lineStart_some _ _ _ h2
      rw [hst]
      have e2 : (lines (a2 ++ 10 :: y ++ 10 :: (x ++ suf)))[(lines (a2 ++ 10 :: y)).length - 1]? = some y := by
        rw [lines_append, lines_append, lines_one y h2]
        simp
      have e3 : slice (a2 ++ 10 :: y ++ 10 :: (x ++ suf)) (a2.length + 1) (a2 ++ 10 :: y).length = y := by
        unfold slice
        rw [show a2 ++ 10 :: y ++ 10 :: (x ++ suf) = (a2 ++ [10]) ++ (y ++ 10 :: (x ++ suf)) by simp, show a2.length + 1 = (a2 ++ [10]).length by simp,
          List.drop_left]
        have : (a2 ++ 10 :: y).length - (a2 ++ [(10 : UInt8)]).length = y.length := by simp; omega
        rw [this, List.take_left]
      rw [e3]
      split
      · exact numbered_eq _ hn _ _ e2
      · rename_i hz
        have : y = [] := List.length_eq_zero_iff.1 (by rw [List.length_append, List.length_cons] at hz; omega)
        rw [← numbered_eq _ hn _ _ e2, this]
        rfl

theorem shown_next (pre suf : Bytes) (h0 : 0 ∉ suf) (line : Nat) (hl : line = lineOf pre) :
    (if (pre ++ suf).getD (pre.length + lineRun ((pre ++ suf).drop pre.length)) 0 == 10 then
      numbered (line + 1) (slice (pre ++ suf) (pre.length + lineRun ((pre ++ suf).drop pre.length) + 1)
        (pre.length + lineRun ((pre ++ suf).drop pre.length) + 1 + lineRun ((pre ++ suf).drop (pre.length + lineRun ((pre ++ suf).drop pre.length) + 1)))) else []) =
      (showable (pre ++ suf) (line + 1)).toList := by
  subst hl
  rcases first_line suf with h | ⟨b, a, rfl, h⟩
  · have hr : lineRun ((pre ++ suf).drop pre.length) = suf.length := by
      rw [List.drop_left]
      simpa using lineRun_some suf [] h h0 (.inl rfl)
    rw [hr, if_neg (by simp), showable_none]
    · rfl
    · right
      rw [List.getElem?_eq_none_iff, lines_length]
      unfold lineOf
      rw [List.count_append, List.count_eq_zero.2 h]
      omega
  · have hr : lineRun ((pre ++ (b ++ 10 :: a)).drop pre.length) = b.length := by
      rw [List.drop_left]
      exact lineRun_some b _ h (fun h => h0 (by simp [h])) (.inr ⟨a, rfl⟩)
    rw [hr, if_pos (by rw [← List.append_assoc, ← List.length_append]; simp)]
    have ed : (pre ++ (b ++ 10 :: a)).drop (pre.length + b.length + 1) = a := by
      rw [show pre ++ (b ++ 10 :: a) = (pre ++ b ++ [10]) ++ a by simp, show pre.length + b.length + 1 = (pre ++ b ++ [10]).length by simp; omega, List.drop_left]
    obtain ⟨l, t, rfl, hl, ht⟩ : ∃ l t, a = l ++ t ∧ 10 ∉ l ∧ (t = [] ∨ ∃ c, t = 10 :: c) := by
      rcases first_line a with h | ⟨l, c, rfl, h⟩
      · exact ⟨a, [], by simp, h, .inl rfl⟩
      · exact ⟨l, 10 :: c, rfl, h, .inr ⟨c, rfl⟩⟩
    rw [ed, lineRun_some l t hl (fun h => h0 (by simp [h])) ht]
    unfold slice
    rw [ed, Nat.add_sub_cancel_left, List.take_left]
    refine numbered_eq _ (by omega) _ _ ?_
    rw [show pre ++ (b ++ 10 :: (l ++ t)) = (pre ++ b) ++ 10 :: (l ++ t) by simp, lines_append]
    have e : lineOf pre + 1 - 1 = (lines (pre ++ b)).length := by
      rw [lines_length]
      unfold lineOf
      rw [List.count_append, List.count_eq_zero.2 h]
      omega
    rw [e, List.getElem?_append_right (Nat.le_refl _), Nat.sub_self]
    rcases ht with rfl | ⟨c, rfl⟩
    · rw [List.append_nil, lines_one l hl]; rfl
    · rw [lines_append, lines_one l hl]; rfl

/-! ## C125 -/

/-- The numbered lines of the report are lines of the text with their own numbers: the line of the error, then the one before it, then the one after it, as
far as the text has them and they have 1 to 199 bytes. -/
theorem c125_lines (pre suf : Bytes) (h0 : 0 ∉ suf) :
    shownLines (pre ++ suf) pre.length (lineOf pre) = [lineOf pre, lineOf pre - 1, lineOf pre + 1].filterMap (showable (pre ++ suf)) := by
  have h3 : ∀ (f : Nat → Option (Nat × Bytes)) a b c, [a, b, c].filterMap f = (f a).toList ++ (f b).toList ++ (f c).toList := by
    intro f a b c
    cases ha : f a <;> cases hb : f b <;> cases hc : f c <;> simp [ha, hb, hc]
  rw [h3]
  unfold shownLines
  dsimp only
  obtain ⟨l, e, es⟩ := shown_cur pre suf h0
  rw [es, numbered_eq _ (by unfold lineOf; omega) _ _ e, shown_prev pre suf _ rfl, shown_next pre suf h0 _ rfl]

/-- The column of the "current position" is the column where the reader stopped, in every text. -/
theorem c125_column (pre suf : Bytes) : colInLine (pre ++ suf) pre.length = colOf pre := by
  unfold colInLine colOf
  rcases last_line pre with h | ⟨a, x, rfl, h⟩
  · have := List.takeWhile_append_of_pos (p := fun b : UInt8 => b != 10) (l₁ := pre.reverse) (l₂ := []) (by
      intro b hb
      simp only [bne_iff_ne, ne_eq]
      rintro rfl
      exact h (by simpa using hb))
    rw [List.append_nil] at this
    rw [lineStart_none _ _ h, this]
    simp; omega
  · rw [show (a ++ 10 :: x).length = a.length + 1 + x.length by simp; omega, List.append_assoc, List.cons_append, lineStart_some _ _ _ h]
    rw [List.reverse_append, List.reverse_cons, List.append_assoc, List.singleton_append, List.takeWhile_append_of_pos]
    · simp; omega
    · intro b hb
      simp only [bne_iff_ne, ne_eq]
      rintro rfl
      exact h (by simpa using hb)


/-- So, after a reading of a text without the byte pair `\`, newline, the lines of the report are those around the place where the reader stopped.
Missing: texts with that pair, where `c124_lines_counterexample` gives wrong numbers. -/
theorem c125_error_partial (text : Bytes) (h0 : 0 ∉ text) (hn : NoEscapedNewline text) (q : Q) (hq : Reading F text q) (p : P) (he : q = .err p) :
    let line := lineOf (before text p.r.length)
    shownLines text (text.length - p.r.length) p.line = [line, line - 1, line + 1].filterMap (showable text) := by
  intro line
  rw [(c124_lines_partial text hn q hq p (.inr he)).1]
  have e : text = before text p.r.length ++ text.drop (text.length - p.r.length) := (List.take_append_drop ..).symm
  have hl : (before text p.r.length).length = text.length - p.r.length := by unfold before; rw [List.length_take]; omega
  have := c125_lines (before text p.r.length) (text.drop (text.length - p.r.length)) (fun h => h0 (List.mem_of_mem_drop h))
  rw [← e, hl] at this
  exact this

/-- `(a⏎ )b)` -/
example : Demo.errAt (parse Demo.F1 [] [40, 97, 10, 32, 41, 98, 41]) = some (2, 3) ∧
    shownLines [40, 97, 10, 32, 41, 98, 41] 5 2 = [(2, [32, 41, 98, 41]), (1, [40, 97])] ∧ lines [40, 97, 10, 32, 41, 98, 41] = [[40, 97], [32, 41, 98, 41]] := by
  decide +kernel

theorem printD_pos (n : Nat) : 1 ≤ (printD n).length := by
  unfold printD
  rw [decLoop]
  split
  · simp
  · simp

theorem lld_pos (n : Nat) : 1 ≤ (printLld n).length := by
  unfold printLld
  rw [List.length_append]
  have := printD_pos (n : Int).natAbs
  omega

/-- The caret below the line of the error never stands below the byte where the reader stopped: it is as many columns to the left as the line number has
digits. -/
theorem c125_caret_fails (line : Nat) (l : Bytes) (col : Nat) :
    (∀ i, (lineRow line l)[5 + (printLld line).length + i]? = l[i]?) ∧
    (∀ i, (caretRow col)[i]? = some 94 ↔ i = 5 + (col - 1)) ∧ 5 + (printLld line).length + (col - 1) ≠ 5 + (col - 1) := by
  refine ⟨fun i => ?_, fun i => ?_, ?_⟩
  · unfold lineRow
    rw [List.getElem?_append_right (by simp; omega)]
    congr 1
    simp
    omega
  · unfold caretRow
    rw [List.replicate_append_replicate]
    constructor
    · intro h
      have hi : i < 5 + (col - 1) + 1 := by
        have := (List.getElem?_eq_some_iff.1 h).1
        simpa using this
      by_cases hc : i < 5 + (col - 1)
      · rw [List.getElem?_append_left (by simpa using hc), List.getElem?_replicate, if_pos hc] at h
        simp at h
      · omega
    · rintro rfl
      rw [List.getElem?_append_right (by simp)]
      simp
  · have := lld_pos line
    omega

/-- The caret below the first line of an unfinished construct stands below its first byte only if the line number has nine digits. -/
theorem c125_frame_caret_fails (line : Nat) (l : Bytes) (col : Nat) :
    (∀ i, (frameRow line l)[14 + (printLld line).length + i]? = l[i]?) ∧
    (∀ i, (frameCaret col)[i]? = some 94 ↔ i = 23 + (col - 1)) ∧ (14 + (printLld line).length + (col - 1) = 23 + (col - 1) ↔ (printLld line).length = 9) := by
  refine ⟨fun i => ?_, fun i => ?_, by omega⟩
  · unfold frameRow
    have ha : (asc "Line ").length = 5 := by decide +kernel
    rw [List.getElem?_append_right (by simp [ha]; omega)]
    congr 1
    simp [ha]
    omega
  · unfold frameCaret
    rw [List.replicate_append_replicate, List.replicate_append_replicate]
    constructor
    · intro h
      have hi : i < 7 + 16 + (col - 1) + 1 := by
        have := (List.getElem?_eq_some_iff.1 h).1
        simpa using this
      by_cases hc : i < 7 + 16 + (col - 1)
      · rw [List.getElem?_append_left (by simpa using hc), List.getElem?_replicate, if_pos hc] at h
        simp at h
      · omega
    · rintro rfl
      rw [List.getElem?_append_right (by simp)]
      simp

/-- Of a stack of more than 20 frames the report always says that there are 20 more, whatever the number: the texts for 21 and for 22 equal frames are the
same. -/
theorem c125_more_counterexample (file text : Bytes) (f : Frame) :
    printStack file text (List.replicate 21 f) = printStack file text (List.replicate 22 f) := by
  unfold printStack
  rw [show (List.replicate 21 f).take 20 = (List.replicate 22 f).take 20 by simp]
  simp

/-- The report begins with the file, the line where the reader stopped (`:` is 58), the column the reader holds, and the message. -/
theorem c125_head_partial (file text msg eval out : Bytes) (hn : NoEscapedNewline text) (q : Q) (hq : Reading F text q) (p : P) (he : q = .err p)
    (h : report file text msg eval p = some out) :
    ∃ line col rest, Spec.IsNumeral 10 (lineOf (before text p.r.length) : Nat) line ∧ Spec.IsNumeral 10 p.col col ∧
      out = file ++ [58] ++ line ++ [58] ++ col ++ asc ": parse error: " ++ msg ++ [10] ++ rest := by
  rw [← (c124_lines_partial text hn q hq p (.inr he)).1]
  unfold report at h
  cases hs : printStack file text p.stk with
  | none => rw [hs] at h; cases h
  | some stack =>
    rw [hs] at h
    simp only [Option.bind_eq_bind, Option.bind_some, Option.some.injEq] at h
    simp only [List.append_assoc] at h ⊢
    exact ⟨printLld p.line, printLld p.col, _, printLld_numeral _, printLld_numeral _, h.symm⟩

/-- The parse stack, as text: the first twenty frames in order, from the innermost, each with its number from 0, the kind of the construct and the place
where it starts. -/
theorem c126_shown (file text out : Bytes) (stk : List Frame) (hne : stk ≠ []) (h : printStack file text stk = some out) :
    ∃ (parts : List Bytes) (a b : Bytes), parts.length = min 20 stk.length ∧ out = a ++ parts.flatten ++ b ∧
      ∀ (i : Nat) (f : Frame), i < 20 → stk[i]? = some f → ∃ num line col ctx, Spec.IsNumeral 10 i num ∧ Spec.IsNumeral 10 f.line line ∧ Spec.IsNumeral 10 f.col col ∧
        parts[i]? = some (asc "  #" ++ num ++ asc ": Parsing " ++ f.kind.name ++ asc "\n       Started at: " ++ file ++ [58] ++ line ++ [58] ++ col ++ [10] ++ ctx) := by
  have key : ∀ (fs : List Frame) (j : Nat) (o : Bytes), frames file text j fs = some o → ∃ parts : List Bytes, parts.length = fs.length ∧ o = parts.flatten ∧
      ∀ (i : Nat) (f : Frame), fs[i]? = some f → ∃ ctx, parts[i]? = some (frameHead file (j + i) f ++ ctx) := by
    intro fs
    induction fs with
    | nil => intro j o h; cases h; exact ⟨[], rfl, rfl, by simp⟩
    | cons g fs ih =>
      intro j o h
      simp only [frames, Option.bind_eq_bind] at h
      cases hc : frameContext text g with
      | none => rw [hc] at h; cases h
      | some c =>
        cases hr : frames file text (j + 1) fs with
        | none => rw [hc, hr] at h; cases h
        | some r =>
          rw [hc, hr] at h
          simp only [Option.bind_some, Option.some.injEq] at h
          obtain ⟨parts, hl, rfl, hp⟩ := ih _ _ hr
          refine ⟨(frameHead file j g ++ c ++ [10]) :: parts, by simp [hl], by simp [← h], fun i f hf => ?_⟩
          cases i with
          | zero =>
            simp only [List.getElem?_cons_zero, Option.some.injEq] at hf
            subst hf
            exact ⟨c ++ [10], by simp⟩
          | succ i =>
            obtain ⟨ctx, e⟩ := hp i f (by simpa using hf)
            exact ⟨ctx, by rw [show j + (i + 1) = j + 1 + i by omega]; simpa using e⟩
  unfold printStack at h
  rw [if_neg (by simp [hne])] at h
  simp only [Option.bind_eq_bind] at h
  cases hf : frames file text 0 (stk.take 20) with
  | none => rw [hf] at h; cases h
  | some fs =>
    rw [hf] at h
    simp only [Option.bind_some, Option.some.injEq] at h
    obtain ⟨parts, hl, rfl, hp⟩ := key _ _ _ hf
    refine ⟨parts, _, _, by simpa using hl, by rw [← h]; simp only [List.append_assoc]; rfl, fun i f hi hs => ?_⟩
    obtain ⟨ctx, e⟩ := hp i f (by rw [List.getElem?_take, if_pos hi]; exact hs)
    refine ⟨printLld i, printLld f.line, printLld f.col, ctx, printLld_numeral _, printLld_numeral _, printLld_numeral _, ?_⟩
    have ea : asc "\n       Started at: " = [10] ++ List.replicate 7 32 ++ asc "Started at: " := by decide +kernel
    rw [e, ea]
    simp [frameHead]

/-- `(a (b )c`: hypotheses of the two theorems above. -/
example : ∃ p out, parse Demo.F1 [] [40, 40, 97] = .err p ∧ p.stk = [⟨.list, 1, 1, 3⟩] ∧ printStack [102] [40, 40, 97] p.stk = some out :=
  ⟨_, _, rfl, by decide +kernel, rfl⟩

end Pscm.Rp
