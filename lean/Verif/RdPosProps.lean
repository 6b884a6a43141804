import Verif.RdPosLemmas
import Verif.RdPosNamed
/-!
# C124: the positions that the reader records and reports
-/
namespace Pscm.Rp
open Rd

variable {F : FloIO}

/-! ## Specification -/

/-- The line, counted from 1, of the byte that follows `pre`. -/
def lineOf (pre : Bytes) : Nat := 1 + pre.count 10
/-- The column, counted from 1, of the byte that follows `pre`. -/
def colOf (pre : Bytes) : Nat := 1 + (pre.reverse.takeWhile (· != 10)).length
/-- The part of the text before the place where `left` bytes are left. -/
def before (text : Bytes) (left : Nat) : Bytes := text.take (text.length - left)

/-- The reader stopped in the state `p`: with a datum, or with a parse error (which reports the position of `p`). -/
def Stops (q : Q) (p : P) : Prop := (∃ d, q = .ok d p) ∨ q = .err p

/-- A reading of the text: `parse`, or the loop over the expressions of a program text; the parse stack may hold anything at the start. -/
def Reading (F : FloIO) (text : Bytes) (q : Q) : Prop := ∃ stk, q = parse F stk text ∨ ∃ n, q = parseAll F n { r := text, stk := stk }

/-- No byte pair `\`, newline. -/
def NoEscapedNewline (text : Bytes) : Prop := ∀ pre suf, text ≠ pre ++ 92 :: 10 :: suf

/-! ## Proofs -/

theorem Right.before {text : Bytes} {Pos : Bytes → Nat → Nat → Prop} {left l c : Nat} (h : Right text Pos left l c) : Pos (before text left) l c := by
  obtain ⟨suf, rfl, pre, rfl, hp⟩ := h
  have : Rp.before (pre ++ suf) suf.length = pre := by simp [Rp.before]
  rw [this]
  exact hp

theorem Inv.clear {text : Bytes} {Pos : Bytes → Nat → Nat → Prop} {old : List Frame} {p : P} (h : Inv text Pos old p) : Inv text Pos old { p with stk := [] } :=
  ⟨h.here, h.log, fun _ hf => by cases hf⟩

theorem parseAll_fine {text : Bytes} {Pos : Bytes → Nat → Nat → Prop} {old : List Frame} (R : Rules text Pos) (n : Nat) :
    ∀ p : P, Inv text Pos old p → Fine text Pos old (parseAll F n p) := by
  induction n with
  | zero => intro p _; trivial
  | succ n ih =>
    intro p h
    rw [parseAll]
    have h1 := h.skip R
    split
    · exact h1.clear
    · have h2 : Fine text Pos old (parseExpr F (skipWs p)) := rd_fine R _ _ _ h1
      split
      · rename_i d p1 e
        rw [e] at h2
        have h3 := ih _ (Inv.skip R (Inv.clear h2))
        split
        · rename_i ds p2 e3
          rw [e3] at h3
          exact h3
        · exact h3
      · rename_i p1 e
        rw [e] at h2
        exact h2
      · exact h2

theorem reading_fine {text : Bytes} {Pos : Bytes → Nat → Nat → Prop} (R : Rules text Pos) (h0 : Pos [] 1 1) {q : Q} (hq : Reading F text q) :
    ∃ old, Fine text Pos old q := by
  obtain ⟨stk, hq⟩ := hq
  have hi : Inv text Pos stk { r := text, stk := stk } := ⟨⟨[], rfl, h0⟩, fun m hm => (by cases hm), fun f hf => .inl hf⟩
  refine ⟨stk, ?_⟩
  rcases hq with rfl | ⟨n, rfl⟩
  · have h := rd_fine (F := F) R (depth text) .expr _ hi
    unfold parse
    have e : parseExpr F { r := text, stk := stk } = rd F (depth text) .expr { r := text, stk := stk } := rfl
    rw [e]
    split
    · rename_i d p e
      rw [e] at h
      have := Inv.skip R h
      split <;> exact this
    · rename_i p e
      rw [e] at h
      exact Inv.skip R h
    · exact h
  · exact parseAll_fine R n _ hi

theorem stops_inv {text : Bytes} {Pos : Bytes → Nat → Nat → Prop} (R : Rules text Pos) (h0 : Pos [] 1 1) {q : Q} (hq : Reading F text q) {p : P}
    (hs : Stops q p) : Pos (before text p.r.length) p.line p.col ∧ ∀ m ∈ p.log, Pos (before text m.left) m.line m.col := by
  obtain ⟨old, h⟩ := reading_fine R h0 hq
  have hi : Inv text Pos old p := by
    rcases hs with ⟨d, rfl⟩ | rfl <;> exact h
  exact ⟨hi.right.before, fun m hm => (hi.log m hm).before⟩

theorem lineOf_snoc (pre : Bytes) (b : UInt8) : lineOf (pre ++ [b]) = if b = 10 then lineOf pre + 1 else lineOf pre := by
  unfold lineOf
  rw [List.count_append, List.count_singleton]
  by_cases h : b = 10
  · simp [h]; omega
  · simp [h]

theorem colOf_snoc (pre : Bytes) (b : UInt8) : colOf (pre ++ [b]) = if b = 10 then 1 else colOf pre + 1 := by
  unfold colOf
  rw [List.reverse_append, List.reverse_singleton, List.singleton_append, List.takeWhile_cons]
  by_cases h : b = 10
  · simp [h]
  · simp [h]; omega

theorem rules_line {text : Bytes} (hn : NoEscapedNewline text) : Rules text fun pre l _ => l = lineOf pre where
  plain := by intro pre b suf l c _ hb h; rw [lineOf_snoc, if_neg hb]; exact h
  newline := by intro pre suf l c _ h; rw [lineOf_snoc, if_pos rfl, h]
  escaped := by
    intro pre b suf l c e h
    have hb : b ≠ 10 := by rintro rfl; exact hn pre suf e
    rw [show pre ++ [92, b] = (pre ++ [92]) ++ [b] by simp, lineOf_snoc, if_neg hb]
    exact h
  string := by intro pre suf l c _ _ h; rw [lineOf_snoc, if_pos rfl, h]
  brace := by intro pre suf l c _ _ h; rw [lineOf_snoc, if_pos rfl, h]
  colon := by
    intro pre suf l c _ h
    rw [show pre ++ [35, 58] = (pre ++ [35]) ++ [58] by simp, lineOf_snoc, if_neg (by decide), lineOf_snoc, if_neg (by decide)]
    exact h

theorem rules_col {text : Bytes} (hn : NoEscapedNewline text) (hs : 34 ∉ text) (hb : 123 ∉ text) (hc : ∀ pre suf, text ≠ pre ++ 35 :: 58 :: suf) :
    Rules text fun pre _ c => c = colOf pre where
  plain := by intro pre b suf l c _ hb h; rw [colOf_snoc, if_neg hb, h]
  newline := by intro pre suf l c _ h; rw [colOf_snoc, if_pos rfl]
  escaped := by
    intro pre b suf l c e h
    have hb : b ≠ 10 := by rintro rfl; exact hn pre suf e
    rw [show pre ++ [92, b] = (pre ++ [92]) ++ [b] by simp, colOf_snoc, if_neg hb, h]
  string := by intro pre suf l c e h _; exact absurd (by rw [e]; exact List.mem_append_left _ h) hs
  brace := by intro pre suf l c e h _; exact absurd (by rw [e]; exact List.mem_append_left _ h) hb
  colon := by intro pre suf l c e _; exact absurd e (hc _ _)

/-! ## C124 -/

/-- Lines: in a text without the byte pair `\`, newline, the line that a parse error reports is the line where it stopped, and every line recorded for a
datum is the line where that datum starts (`c124_datum`).  Missing: texts with that pair (`c124_lines_counterexample`). -/
theorem c124_lines_partial (text : Bytes) (hn : NoEscapedNewline text) (q : Q) (hq : Reading F text q) (p : P) (hs : Stops q p) :
    p.line = lineOf (before text p.r.length) ∧ ∀ m ∈ p.log, m.line = lineOf (before text m.left) :=
  stops_inv (rules_line hn) rfl hq hs

/-- Columns: right in texts that have moreover no `"`, no `{` and no `#:`.  Missing: texts with them (`c124_columns_counterexample`). -/
theorem c124_columns_partial (text : Bytes) (hn : NoEscapedNewline text) (hs : 34 ∉ text) (hb : 123 ∉ text)
    (hc : ∀ pre suf, text ≠ pre ++ 35 :: 58 :: suf) (q : Q) (hq : Reading F text q) (p : P) (hp : Stops q p) :
    p.col = colOf (before text p.r.length) ∧ ∀ m ∈ p.log, m.col = colOf (before text m.left) :=
  stops_inv (rules_col hn hs hb hc) rfl hq hp

theorem skip_named {text : Bytes} {p : P} (h : Nam F text p) : Nam F text (skipWs p) := h.skip

theorem parseAll_named {text : Bytes} (n : Nat) : ∀ p : P, Nam F text p → OkN F text (parseAll F n p) := by
  induction n with
  | zero => intro p _ d p' h; cases h
  | succ n ih =>
    intro p h
    rw [parseAll]
    have h1 := h.skip
    split
    · exact OkN.ok ⟨h1.here, h1.log⟩
    · have h2 : OkN F text (parseExpr F (skipWs p)) := rd_named _ _ _ h1
      split
      · rename_i d p1 e
        have h3 := h2 d p1 e
        have h4 := ih (skipWs { p1 with stk := [] }) (Nam.skip ⟨h3.here, h3.log⟩)
        split
        · rename_i ds p2 e3
          exact OkN.ok (h4 _ _ e3)
        · exact h4
      · exact OkN.err
      · exact h2

/-- What is recorded: every datum with a recorded position is the one that the reader reads at that place of the text (or the name of a keyword, after
its `#:`). -/
theorem c124_datum (text : Bytes) (q : Q) (hq : Reading F text q) (d : D) (p : P) (h : q = .ok d p) (m : Mark) (hm : m ∈ p.log) :
    ∃ pre suf, text = pre ++ suf ∧ suf.length = m.left ∧
      ((∃ r, Rd.parseExpr F suf = .ok m.datum r) ∨ ((∃ pre', pre = pre' ++ [35, 58]) ∧ ∃ r, Rd.pSymbol suf = .ok m.datum r)) := by
  have hn : Nam F text p := by
    obtain ⟨stk, hq⟩ := hq
    have hi : Nam F text { r := text, stk := stk } := ⟨List.suffix_rfl, fun m hm => by cases hm⟩
    rcases hq with rfl | ⟨n, rfl⟩
    · unfold parse at h
      split at h
      · rename_i d' p' e
        have h3 : Nam F text p' := rd_named (depth text) .expr _ hi d' p' e
        split at h
        · cases h; exact h3.skip
        · cases h
      · cases h
      · rename_i h1 h2
        exact absurd h (h1 d p)
    · exact parseAll_named n _ hi d p h
  obtain ⟨suf, hl, pre, e, h⟩ := hn.log m hm
  exact ⟨pre, suf, e, hl, h⟩

theorem head_orElse {x y : Q} {d : D} {p : P} (h : orElse x y = .ok d p) : x = .ok d p ∨ ((∃ p', x = .null p') ∧ y = .ok d p) := by
  cases x with
  | null p' => exact .inr ⟨⟨p', rfl⟩, h⟩
  | _ => exact .inl h

/-- The reader records the position of each expression that does not start with `'`, `` ` `` or `#:`: the last call of `set_source_location` is for the
expression itself, with the place where it starts (white space and comments skipped). -/
theorem c124_own (p p' : P) (d : D) (h : parseExpr F p = .ok d p') (h1 : cur (skipWs p).r ≠ 39) (h2 : cur (skipWs p).r ≠ 96)
    (h3 : ¬ (cur (skipWs p).r = 35 ∧ (skipWs p).r.getD 1 0 = 58)) :
    p'.log.head? = some ⟨d, (skipWs p).r.length, (skipWs p).line, (skipWs p).col⟩ := by
  have leaf : ∀ q : Q, Only (skipWs p) q → q = .ok d p' → p'.log.head? = some ⟨d, (skipWs p).r.length, (skipWs p).line, (skipWs p).col⟩ := by
    intro q ho e
    rw [(ho d p' e).1]
    rfl
  obtain ⟨n, hn⟩ : ∃ n, depth p.r = n + 2 := ⟨4 * p.r.length + 2, rfl⟩
  have h : rd F (n + 2) .expr p = .ok d p' := by rw [← hn]; exact h
  have e : rd F (n + 2) .expr p = (if cur (skipWs p).r == 0 then .null (skipWs p)
      else if cur (skipWs p).r == 39 then rd F (n + 1) .quote (skipWs p)
      else if cur (skipWs p).r == 96 then rd F (n + 1) .quasi (skipWs p)
      else if cur (skipWs p).r == 40 then rd F (n + 1) .list (skipWs p)
      else if cur (skipWs p).r == 34 then pString (skipWs p)
      else pHash F (rd F (n + 1)) (skipWs p)) := rfl
  rw [e] at h
  by_cases c0 : cur (skipWs p).r == 0
  · rw [if_pos c0] at h; cases h
  rw [if_neg c0, if_neg (by simpa using h1), if_neg (by simpa using h2)] at h
  have mk : ∀ {a : D} {x : P}, mark (skipWs p) a x = .ok d p' → p'.log.head? = some ⟨d, (skipWs p).r.length, (skipWs p).line, (skipWs p).col⟩ := by
    intro a x h
    cases h
    rfl
  have hadv : ∀ {x : P} {k : Nat} {f : P → Q}, adv x k f = .ok d p' → ∃ y, f y = .ok d p' := by
    intro x k f h
    unfold adv at h
    split at h
    · exact ⟨_, h⟩
    · cases h
  split at h
  · change pList (rd F n) (skipWs p) = _ at h
    rename_i c3
    unfold pList at h
    rw [if_pos c3] at h
    obtain ⟨y, h⟩ := hadv h
    dsimp only at h
    by_cases c4 : cur (skipWs y).r == 41
    · rw [if_pos c4] at h
      obtain ⟨z, h⟩ := hadv h
      exact mk h
    · rw [if_neg c4] at h
      cases hr : rd F n .items (skipWs y) with
      | ok a b => rw [hr] at h; exact mk h
      | _ => rw [hr] at h; cases h
  · split at h
    · exact leaf _ pString_only h
    · have plain : orElse (pChar (skipWs p)) (orElse (rd F (n + 1) .vec (skipWs p)) (pAtom F (skipWs p))) = .ok d p' →
          p'.log.head? = some ⟨d, (skipWs p).r.length, (skipWs p).line, (skipWs p).col⟩ := by
        intro h
        rcases head_orElse h with h | ⟨_, h⟩
        · exact leaf _ pChar_only h
        · rcases head_orElse h with h | ⟨_, h⟩
          · change pVec (rd F n) (skipWs p) = _ at h
            unfold pVec look at h
            split at h
            · split at h
              · dsimp only at h
                split at h
                · obtain ⟨y, h⟩ := hadv h
                  split at h
                  · obtain ⟨z, h⟩ := hadv h
                    exact mk h
                  · unfold need at h
                    split at h
                    · exact mk h
                    all_goals cases h
                · cases h
              · cases h
            · cases h
          · exact leaf _ pAtom_only h
      unfold pHash look at h
      split at h
      · rename_i hc
        split at h
        · dsimp only at h
          split at h
          · rename_i hd
            exact absurd ⟨by simpa using hc, by simpa using hd⟩ h3
          · split at h
            · exact leaf _ pBrace_only h
            · exact plain h
        · cases h
      · exact plain h

/-- The final location of a datum that is one shared object (`#t`, `#f`, `()`): the one stored last. -/
def sharedLoc (p : P) (d : D) : Option (Nat × Nat) := (p.log.find? fun m => m.datum == d).map fun m => (m.line, m.col)

def Demo.F1 : FloIO := ⟨fun _ _ _ _ => 0, fun _ => []⟩

/-- The recorded positions, oldest first. -/
def Demo.marks : Q → Option (List (D × Nat × Nat))
  | .ok _ p => some (p.log.reverse.map fun m => (m.datum, m.line, m.col))
  | _ => none

/-- Where a parse error is reported. -/
def Demo.errAt : Q → Option (Nat × Nat)
  | .err p => some (p.line, p.col)
  | _ => none

/-- The hypotheses are met: `(a ; x⏎ (b 1))` -/
example : NoEscapedNewline [40, 97, 32, 59, 120, 10, 32, 40, 98, 32, 49, 41, 41] ∧
    Demo.marks (parse Demo.F1 [] [40, 97, 32, 59, 120, 10, 32, 40, 98, 32, 49, 41, 41]) = some
      [(.sym [97], 1, 2), (.sym [98], 2, 3), (.num 1, 2, 5), (.pair (.sym [98]) (.pair (.num 1) .nil), 2, 2),
       (.pair (.sym [97]) (.pair (.pair (.sym [98]) (.pair (.num 1) .nil)) .nil), 1, 1)] := by
  refine ⟨fun pre suf h => ?_, by decide +kernel⟩
  have : (92 : UInt8) ∈ [40, 97, 32, 59, 120, 10, 32, 40, 98, 32, 49, 41, 41] := by rw [h]; simp
  revert this
  decide

/-- `(a⏎ b` : the error is reported on line 2, column 3. -/
example : Demo.errAt (parse Demo.F1 [] [40, 97, 10, 32, 98]) = some (2, 3) := by decide +kernel

/-- Lines are wrong after an escaped newline: in `("\⏎" x)` and in `(#\⏎ x)` the symbol `x` on line 2 is recorded on line 1. -/
theorem c124_lines_counterexample :
    Demo.marks (parse Demo.F1 [] [40, 34, 92, 10, 34, 32, 120, 41]) = some
      [(.str [10], 1, 2), (.sym [120], 1, 7), (.pair (.str [10]) (.pair (.sym [120]) .nil), 1, 1)] ∧
    lineOf [40, 34, 92, 10, 34, 32] = 2 ∧
    Demo.marks (parse Demo.F1 [] [40, 35, 92, 10, 32, 120, 41]) = some
      [(.chr 10, 1, 2), (.sym [120], 1, 6), (.pair (.chr 10) (.pair (.sym [120]) .nil), 1, 1)] ∧
    lineOf [40, 35, 92, 10, 32] = 2 := by decide +kernel

/-- Columns are wrong after a newline in a string (one too large), after a newline in `#{ }#` (one too small) and for keywords (two too small):
`("⏎"x)`, `(#{⏎}# x)`, `(#:a b)`. -/
theorem c124_columns_counterexample :
    Demo.marks (parse Demo.F1 [] [40, 34, 10, 34, 120, 41]) = some
      [(.str [10], 1, 2), (.sym [120], 2, 3), (.pair (.str [10]) (.pair (.sym [120]) .nil), 1, 1)] ∧
    colOf [40, 34, 10, 34] = 2 ∧
    Demo.marks (parse Demo.F1 [] [40, 35, 123, 10, 125, 35, 32, 120, 41]) = some
      [(.sym [10], 1, 2), (.sym [120], 2, 3), (.pair (.sym [10]) (.pair (.sym [120]) .nil), 1, 1)] ∧
    colOf [40, 35, 123, 10, 125, 35, 32] = 4 ∧
    Demo.marks (parse Demo.F1 [] [40, 35, 58, 97, 32, 98, 41]) = some
      [(.sym [97], 1, 2), (.sym [98], 1, 4), (.pair (.sym [97]) (.pair (.sym [98]) .nil), 1, 1)] ∧
    colOf [40, 35, 58] = 4 ∧ colOf [40, 35, 58, 97, 32] = 6 := by decide +kernel

/-- `#t` is one object: after `(#t⏎#t)` its location is that of the second one, although the list holds both. -/
theorem c124_shared_counterexample :
    ∃ p, parse Demo.F1 [] [40, 35, 116, 10, 35, 116, 41] = .ok (.pair (.bool true) (.pair (.bool true) .nil)) p ∧ sharedLoc p (.bool true) = some (2, 1) ∧
      (lineOf [40], colOf [40]) = (1, 2) := by
  refine ⟨_, rfl, ?_, ?_⟩ <;> decide +kernel

end Pscm.Rp
