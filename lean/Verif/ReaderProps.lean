import Verif.ReaderRound2
/-!
# C66 – C69: the reader and the printer

`parseExpr F s` is what the reader does with the text `s`: a datum and the text that remains, end of input, or an error; the other two
outcomes are undefined behaviour (`ub`: signed overflow in a numeral, `oob`: access outside the text).  The fuel of the model is not a
restriction: `c66_terminates`.
-/
namespace Pscm
open Rd Rd.Spec
variable {F : FloIO}

/-- Texts for the examples. -/
def Demo.F0 : FloIO := ⟨fun _ _ _ _ => 0, fun _ => []⟩

/-! ## C66 -/

/-- The reader ends on every text: with `4 * length + 4` nested calls or any larger number it gives the same answer, and the answer is not
"still running". -/
theorem c66_terminates (s : Bytes) (n : Nat) (hn : 4 * s.length + 4 ≤ n) : rd F n .expr s = parseExpr F s ∧ parseExpr F s ≠ .fuel := by
  have hl := lim_ne_fuel (F := F) .expr s
  rw [parseExpr_lim]
  refine ⟨?_, hl⟩
  have h2 : rd F n .expr s ≠ .fuel := by
    have hg : Good s (rd F n .expr s) := rd_good n _ _ (by simp [rank]; omega)
    intro h
    rw [h] at hg
    exact hg
  exact rd_eq h2 hl

/-- The reader never accesses memory outside the text and its terminating NUL. -/
theorem c66_in_bounds (s : Bytes) : parseExpr F s ≠ .oob := by
  intro h
  have hg : Good s (parseExpr F s) := rd_good _ _ _ (by simp [rank, depth])
  rw [h] at hg
  exact hg

/-- A datum is read from a nonempty beginning of the text; what remains is the rest of the text. -/
theorem c66_progress {s r : Bytes} {d : D} (h : parseExpr F s = .ok d r) : ∃ p, p ≠ [] ∧ s = p ++ r := by
  have hg : Good s (parseExpr F s) := rd_good _ _ _ (by simp [rank, depth])
  rw [h] at hg
  obtain ⟨⟨p, hp⟩, hl⟩ := hg
  refine ⟨p, ?_, hp.symm⟩
  rintro rfl
  rw [← hp] at hl
  simp at hl

theorem skip_eof : ∀ (b : Bool) (s : Bytes), (0 : UInt8) ∉ s → cur (skip b s) = 0 → skip b s = []
  | _, [], _, _ => rfl
  | b, c :: t, h, hc => by
    have h0 : c ≠ 0 := fun hh => h (by simp [hh])
    have ih := fun b => skip_eof b t fun hh => h (by simp [hh])
    revert hc
    unfold skip
    repeat' split
    all_goals first | exact ih _ | (intro hc; exact absurd hc h0) | simp_all

theorem skip_all_aux : ∀ (b : Bool) (s : Bytes), (0 : UInt8) ∉ s → (skip b s = [] ↔
    if b then (10 ∉ s ∨ ∃ t w, s = t ++ 10 :: w ∧ 10 ∉ t ∧ AllBlank w) else AllBlank s)
  | true, [], _ => by simp [skip]
  | false, [], _ => by simp [skip]; exact ⟨[], [], rfl, .nil, .inl rfl⟩
  | true, c :: t, h => by
    have h0 : c ≠ 0 := fun hh => h (by simp [hh])
    have h' : (0 : UInt8) ∉ t := fun hh => h (by simp [hh])
    rw [skip]
    simp only [↓reduceIte, beq_iff_eq, h0]
    split
    · rename_i hc
      rw [skip_all_aux false t h']
      subst hc
      simp only [Bool.false_eq_true, ↓reduceIte]
      constructor
      · exact fun hb => .inr ⟨[], t, rfl, by simp, hb⟩
      · rintro (hn | ⟨u, w, he, hu, hb⟩)
        · exact absurd (by simp) hn
        · cases u with
          | nil => simp at he; rw [he]; exact hb
          | cons a u => simp at he; exact absurd (by simp [he.1]) hu
    · rename_i hc
      rw [skip_all_aux true t h']
      simp only [↓reduceIte]
      constructor
      · rintro (hn | ⟨u, w, he, hu, hb⟩)
        · exact .inl (by simp [hn, Ne.symm hc])
        · exact .inr ⟨c :: u, w, by rw [he]; rfl, by simp [hu, Ne.symm hc], hb⟩
      · rintro (hn | ⟨u, w, he, hu, hb⟩)
        · exact .inl fun hh => hn (by simp [hh])
        · cases u with
          | nil => simp at he; exact absurd he.1 hc
          | cons a u => simp at he; exact .inr ⟨u, w, he.2, fun hh => hu (by simp [hh]), hb⟩
  | false, c :: t, h => by
    have h0 : c ≠ 0 := fun hh => h (by simp [hh])
    have h' : (0 : UInt8) ∉ t := fun hh => h (by simp [hh])
    rw [skip]
    simp only [Bool.false_eq_true, ↓reduceIte, beq_iff_eq]
    split
    · rename_i hc
      have hm := isSpace_iff.1 hc
      rw [skip_all_aux false t h']
      simp only [Bool.false_eq_true, ↓reduceIte]
      constructor
      · rintro ⟨w, e, rfl, hw, he⟩
        exact ⟨c :: w, e, rfl, .space hm hw, he⟩
      · rintro ⟨w, e, hs, hw, he⟩
        cases hw with
        | nil =>
          rcases he with rfl | ⟨u, rfl, _⟩
          · simp at hs
          · simp only [List.nil_append, List.cons.injEq] at hs
            rw [hs.1] at hm
            exact absurd hm (by decide)
        | @space d w hd hw =>
          simp only [List.cons_append, List.cons.injEq] at hs
          exact ⟨w, e, hs.2, hw, he⟩
        | @comment u w hu hw =>
          simp only [List.cons_append, List.cons.injEq] at hs
          rw [hs.1] at hm
          exact absurd hm (by decide)
    · rename_i hc
      split
      · rename_i hs
        subst hs
        rw [skip_all_aux true t h']
        simp only [↓reduceIte]
        constructor
        · rintro (hn | ⟨u, w, rfl, hu, v, e, rfl, hv, he⟩)
          · exact ⟨[], 59 :: t, rfl, .nil, .inr ⟨t, rfl, hn⟩⟩
          · refine ⟨59 :: (u ++ 10 :: v), e, by simp, .comment (fun c hc => ⟨?_, ?_⟩) hv, he⟩
            · rintro rfl; exact hu hc
            · rintro rfl; exact h' (by simp [hc])
        · rintro ⟨w, e, hs, hw, he⟩
          cases hw with
          | nil =>
            rcases he with rfl | ⟨u, rfl, hu⟩
            · simp at hs
            · simp only [List.nil_append, List.cons.injEq, true_and] at hs
              exact .inl (hs ▸ hu)
          | @space d w hd hw =>
            simp only [List.cons_append, List.cons.injEq] at hs
            rw [← hs.1] at hd
            exact absurd hd (by decide)
          | @comment u w hu hw =>
            simp only [List.cons_append, List.cons.injEq, true_and] at hs
            exact .inr ⟨u, w ++ e, by rw [hs]; simp, fun hh => (hu _ hh).1 rfl, w, e, rfl, hw, he⟩
      · rename_i hs
        constructor
        · intro hh; simp at hh
        · rintro ⟨w, e, he', hw, he⟩
          cases hw with
          | nil =>
            rcases he with rfl | ⟨u, rfl, hu⟩
            · simp at he'
            · simp only [List.nil_append, List.cons.injEq] at he'
              exact absurd he'.1 hs
          | @space d w hd hw =>
            simp only [List.cons_append, List.cons.injEq] at he'
            rw [he'.1] at hc
            exact absurd (isSpace_iff.2 hd) hc
          | @comment u w hu hw =>
            simp only [List.cons_append, List.cons.injEq] at he'
            exact absurd he'.1 hs

theorem skip_all (s : Bytes) (h : (0 : UInt8) ∉ s) : skipWs s = [] ↔ AllBlank s := by
  have := skip_all_aux false s h
  simpa using this

/-- End of input is reported exactly when nothing but white space and comments is left. -/
theorem c66_eof {s : Bytes} (h0 : (0 : UInt8) ∉ s) : (∃ r, parseExpr F s = .null r) ↔ AllBlank s := by
  rw [parseExpr_lim, lim_expr, ← skip_all s h0]
  constructor
  · rintro ⟨r, hr⟩
    refine skip_eof false s h0 ?_
    apply Classical.byContradiction
    intro hc
    have hc : cur (skipWs s) ≠ 0 := hc
    unfold pExpr at hr
    have hneed : ∀ x (f : D → Bytes → R), (∀ d r r', f d r ≠ .null r') → ∀ r', need x f ≠ .null r' := by
      intro x f hf r'
      cases x <;> simp [need, hf]
    generalize skipWs s = q at hr hc
    dsimp only at hr
    rw [if_neg (by simpa using hc)] at hr
    split at hr
    · rename_i h
      obtain ⟨t, rfl⟩ := cur_beq h (by decide)
      rw [lim_eq] at hr
      change pQuote _ _ = _ at hr
      unfold pQuote at hr
      simp only [cur_cons, beq_self_eq_true, ↓reduceIte, adv_one] at hr
      split at hr
      · rename_i h
        obtain ⟨t, rfl⟩ := cur_beq h (by decide)
        rw [look_one] at hr
        split at hr
        · exact hneed _ _ (by simp) _ hr
        · exact hneed _ _ (by simp) _ hr
      · exact hneed _ _ (by simp) _ hr
    split at hr
    · rename_i h
      obtain ⟨t, rfl⟩ := cur_beq h (by decide)
      rw [lim_eq] at hr
      change pQuasi _ _ = _ at hr
      unfold pQuasi at hr
      simp only [cur_cons, beq_self_eq_true, ↓reduceIte, adv_one] at hr
      exact hneed _ _ (by simp) _ hr
    have hclose : ∀ x r r', close x r ≠ .null r' := by
      intro x r r'
      unfold close
      split
      · rename_i h
        obtain ⟨t, rfl⟩ := cur_beq h (by decide)
        simp
      · simp
    split at hr
    · rename_i h
      obtain ⟨t, rfl⟩ := cur_beq h (by decide)
      rw [lim_eq] at hr
      change pList _ _ = _ at hr
      unfold pList at hr
      simp only [cur_cons, beq_self_eq_true, ↓reduceIte, adv_one] at hr
      split at hr
      · rename_i h
        obtain ⟨u, hu⟩ := cur_beq h (by decide)
        rw [hu, adv_one] at hr
        cases hr
      · rw [lim_eq] at hr
        change pItems _ _ = _ at hr
        unfold pItems at hr
        split at hr
        · exact hclose _ _ _ hr
        · refine hneed _ _ ?_ _ hr
          intro d r r'
          unfold pDot
          dsimp only
          split
          · rename_i h
            obtain ⟨u, hu⟩ := cur_beq h (by decide)
            rw [hu, look_one]
            split
            · exact hneed _ _ (by simp) _
            · rw [adv_one]
              exact hneed _ _ (fun _ _ _ => hclose _ _ _) _
          · exact hneed _ _ (by simp) _
    have hor : ∀ a b : R, (∀ r, b ≠ .null r) → ∀ r, Rd.orElse a b ≠ .null r := by
      intro a b hb r
      cases a <;> simp [Rd.orElse, hb]
    split at hr
    · obtain ⟨c, t, rfl, _⟩ := cur_pos hc
      unfold pString at hr
      rw [adv_one] at hr
      cases hs : scanStr false t with
      | none =>
        rw [hs] at hr
        cases hr
      | some x =>
        rw [hs] at hr
        cases hr
    · have hat : ∀ r', pAtom F q ≠ .null r' := by
        intro r'
        have hrest : ∀ r, Rd.orElse (pNumber F q) (Rd.orElse (pSymbol q) .err) ≠ .null r := hor _ _ (hor _ _ (by simp))
        have hlit : ∀ a b y n, (∀ r, y ≠ .null r) → (∀ r, n ≠ .null r) → a ≠ 0 → b ≠ 0 → ∀ r, litEnd a b q y n ≠ .null r := by
          intro a b y n hy hn ha hb r
          unfold litEnd
          split
          · rename_i h
            obtain ⟨t, rfl⟩ := cur_beq h ha
            rw [look_one]
            split
            · rename_i h
              obtain ⟨u, rfl⟩ := cur_beq h hb
              rw [look_two]
              split
              · exact hy r
              · exact hn r
            · exact hn r
          · exact hn r
        unfold pAtom
        exact hlit _ _ _ _ (hor _ _ hrest) (hlit _ _ _ _ (hor _ _ hrest) hrest (by decide) (by decide)) (by decide) (by decide) r'
      have hpl := hor (pChar q) _ (hor (lim F .vec q) _ hat)
      unfold pHash at hr
      dsimp only at hr
      split at hr
      · rename_i h
        obtain ⟨t, rfl⟩ := cur_beq h (by decide)
        rw [look_one] at hr
        split at hr
        · rename_i h
          obtain ⟨u, rfl⟩ := cur_beq h (by decide)
          rw [adv_two] at hr
          exact hneed _ _ (by simp) _ hr
        · split at hr
          · rename_i h
            obtain ⟨u, rfl⟩ := cur_beq h (by decide)
            unfold pBrace at hr
            rw [adv_two] at hr
            cases hs : scanBrace 0 u with
            | none =>
              rw [hs] at hr
              cases hr
            | some x =>
              rw [hs] at hr
              dsimp only at hr
              split at hr
              · rename_i h
                obtain ⟨v, hv⟩ := cur_beq h (by decide)
                rw [hv, adv_one] at hr
                cases hr
              · cases hr
          · exact hpl _ hr
      · exact hpl _ hr
  · intro h
    refine ⟨[], ?_⟩
    unfold pExpr
    rw [h]
    rfl

/-- The only undefined behaviour is a numeral too long for a machine integer: it needs 19 consecutive digits. -/
theorem c66_defined_partial {s : Bytes} (h : ∀ ds, ds <:+: s → (∀ c ∈ ds, digit c) → ds.length < 19) : parseExpr F s ≠ .ub := by
  intro hu
  have hg : Good s (parseExpr F s) := rd_good _ _ _ (by simp [rank, depth])
  rw [hu] at hg
  obtain ⟨ds, h1, h2, h3⟩ := hg
  have := h ds h1 fun c hc => digit_iff.2 (h2 c hc)
  omega

example : ∀ ds, ds <:+: asc "(1 2)" → (∀ c ∈ ds, digit c) → ds.length < 19 := by
  intro ds h _
  have := h.length_le
  have e : (asc "(1 2)").length = 5 := by decide +kernel
  omega

/-- C66 in full is false: the numeral 9223372036854775808 overflows a signed machine integer. -/
theorem c66_overflow_counterexample : parse Demo.F0 (asc "9223372036854775808") = .ub := by
  decide +kernel

/-- Reading a whole program ends, within the text: there are never more expressions than bytes. -/
theorem c66_program (s : Bytes) (n : Nat) (hn : s.length < n) : parseAll F n s ≠ .fuel ∧ parseAll F n s ≠ .oob := by
  induction n generalizing s with
  | zero => omega
  | succ n ih =>
    unfold parseAll
    split
    · simp
    · have hs := (skipWs_suffix s).length_le
      have hg : Good (skipWs s) (parseExpr F (skipWs s)) := rd_good _ _ _ (by simp [rank, depth])
      cases hp : parseExpr F (skipWs s) with
      | ok d r =>
        rw [hp] at hg
        have hr := ih r (by have := hg.2; omega)
        cases hx : parseAll F n r with
        | fuel => exact absurd hx hr.1
        | oob => exact absurd hx hr.2
        | _ => simp [need, hx]
      | fuel =>
        rw [hp] at hg
        exact absurd hg id
      | oob =>
        rw [hp] at hg
        exact absurd hg id
      | _ => simp [need]

/-! ## C67 -/

/-- Writing a readable datum and reading the text, followed by anything that ends a token, gives back the same datum (with `(a . (b))`
and `(a b)` the same) and leaves what follows. -/
theorem c67_written_partial {d : D} {rest : Bytes} (hr : Readable .datum d) (he : Ends rest) :
    ∃ d', parseExpr F (print F true d ++ rest) = .ok d' rest ∧ norm d' = norm d := by
  refine ⟨canon d, ?_, norm_canon d⟩
  rw [parseExpr_lim]
  exact (back d).1 hr ⟨false, false⟩ rest (ends_iff.1 he)

/-- The same for a text holding nothing else. -/
theorem c67_roundtrip_partial {d : D} (hr : Readable .datum d) : ∃ d', parse F (print F true d) = .ok d' [] ∧ norm d' = norm d := by
  obtain ⟨d', h1, h2⟩ := c67_written_partial (F := F) (rest := []) hr (.inl rfl)
  refine ⟨d', ?_, h2⟩
  rw [List.append_nil] at h1
  unfold parse
  rw [h1]
  rfl

/-- For data as built by `cons` and `list` the very same datum is read back. -/
theorem c67_exact_partial {d : D} (hr : Readable .datum d) (hp : Plain d) : parse F (print F true d) = .ok d [] := by
  have h := (back (F := F) d).1 hr ⟨false, false⟩ [] rfl
  rw [canon_plain hp, List.append_nil, ← parseExpr_lim] at h
  unfold parse print
  rw [h]
  rfl

/-- `(define (f . x) '(1 "a" #\b #(c 2)))` meets the hypotheses. -/
def Demo.datum : D :=
  .pair (.sym (asc "define")) (.pair (.pair (.sym (asc "f")) (.dot (.sym (asc "x")))) (.pair (.pair (.sym (asc "quote"))
    (.pair (.pair (.num 1) (.pair (.str (asc "a")) (.pair (.chr 98) (.pair (.vec (.pair (.sym (asc "c")) (.pair (.num 2) .nil))) .nil)))) .nil)) .nil))

theorem Demo.symOk_name {s : Bytes} (h0 : s ≠ []) (h : ∀ c ∈ s, letter c) : SymOk s := by
  have hl : ∀ c : UInt8, letter c → c ≠ 58 ∧ ¬ digit c ∧ c ∉ [(43 : UInt8), 45] ∧ c ≠ 46 := by
    unfold letter digit
    decide +kernel
  refine ⟨h0, fun c hc => .inl (h c hc), ?_, ?_, ?_, ?_, ?_⟩
  · rintro t rfl
    exact (hl 58 (h 58 (by simp))).1 rfl
  · rintro c t rfl hd
    exact absurd hd (hl c (h c (by simp))).2.1
  · rintro c d t rfl hc
    exact absurd hc (hl c (h c (by simp))).2.2.1
  · rintro rfl
    exact (hl 46 (h 46 (by simp))).2.2.2 rfl
  · rintro t rfl
    exact (hl 46 (h 46 (by simp))).2.2.2 rfl

example : Readable .datum Demo.datum ∧ Plain Demo.datum := by
  have hl : ∀ c ∈ asc "define" ++ asc "f" ++ asc "x" ++ asc "quote" ++ asc "c", letter c := by
    unfold letter
    decide +kernel
  have hd : SymOk (asc "define") := Demo.symOk_name (by decide +kernel) fun c hc => hl c (by simp [hc])
  have hf : SymOk (asc "f") := Demo.symOk_name (by decide +kernel) fun c hc => hl c (by simp [hc])
  have hx : SymOk (asc "x") := Demo.symOk_name (by decide +kernel) fun c hc => hl c (by simp [hc])
  have hq : SymOk (asc "quote") := Demo.symOk_name (by decide +kernel) fun c hc => hl c (by simp [hc])
  have hc : SymOk (asc "c") := Demo.symOk_name (by decide +kernel) fun c hc => hl c (by simp [hc])
  have n1 : asc "define" ≠ asc "quote" ∧ asc "define" ≠ asc "quasiquote" ∧ asc "define" ≠ asc "unquote" ∧ asc "define" ≠ asc "unquote-splicing" := by
    decide +kernel
  have n2 : asc "f" ≠ asc "quote" ∧ asc "f" ≠ asc "quasiquote" ∧ asc "f" ≠ asc "unquote" ∧ asc "f" ≠ asc "unquote-splicing" := by decide +kernel
  have hs : ∀ c ∈ asc "a", StrByte c := by
    unfold StrByte
    decide +kernel
  constructor
  · simp only [Demo.datum, Readable, SpecialHead, hd, hf, hx, hq, hc, true_and, and_true, D.sym.injEq, n1, n2, or_self, false_implies,
      reduceCtorEq, D.pair.injEq, implies_true, exists_eq']
    refine ⟨by decide, hs, by decide, by decide⟩
  · simp [Demo.datum, Plain]

/-- C67 in full is false.  Each of these data is written as something else or as something unreadable: the smallest integer, the ratio 1/2
in a list (read as the two elements `1` and `/2`), the symbol `:a` (read as `a`), a symbol with a space, `(quote a b)`. -/
theorem c67_counterexample :
    parse Demo.F0 (print Demo.F0 true (.num (-2 ^ 63))) = .ub ∧
    parse Demo.F0 (print Demo.F0 true (.pair (.ratio 1 2) .nil)) = .ok (.pair (.num 1) (.pair (.sym (asc "/2")) .nil)) [] ∧
    parse Demo.F0 (print Demo.F0 true (.sym (asc ":a"))) = .ok (.sym (asc "a")) [] ∧
    parse Demo.F0 (print Demo.F0 true (.sym (asc "a b"))) = .err ∧
    parse Demo.F0 (print Demo.F0 true (.pair (.sym (asc "quote")) (.pair (.sym (asc "a")) (.pair (.sym (asc "b")) .nil)))) = .ok (form "quote" (.sym (asc "a"))) [] ∧
    parse Demo.F0 (print Demo.F0 true (.chr 0)) = .err := by
  decide +kernel

/-! ## C68 -/

/-- Reading a written string always gives a string, and gives the same bytes exactly when every byte is printable ASCII, a tab, a newline or
a carriage return. -/
theorem c68_string_partial (s : Bytes) :
    (∃ s', parse F (print F true (.str s)) = .ok (.str s') []) ∧
    (parse F (print F true (.str s)) = .ok (.str s) [] ↔ ∀ c ∈ s, StrByte c) := by
  have h : parse F (print F true (.str s)) = .ok (.str (s.flatMap rtByte)) [] := by
    have := read_str (F := F) s []
    rw [List.append_nil, ← parseExpr_lim] at this
    have hp : print F true (.str s) = strText true s := rfl
    unfold parse
    rw [hp, this]
    rfl
  refine ⟨⟨_, h⟩, ?_⟩
  rw [h]
  constructor
  · intro he
    have he : s.flatMap rtByte = s := by simpa using he
    exact (rt_length s).2 (by rw [he])
  · intro hs
    rw [rt_ok hs]

/-- C68 in full is false: the string of the single byte 7 is written `"\007"` and read back as the three characters 007. -/
theorem c68_counterexample : parse Demo.F0 (print Demo.F0 true (.str [7])) = .ok (.str (asc "007")) [] := by
  decide +kernel

/-! ## C69 -/

/-- White space and comments in front of an expression change nothing. -/
theorem c69_blank {w : Bytes} (h : Blank w) (s : Bytes) : parseExpr F (w ++ s) = parseExpr F s ∧ parse F (w ++ s) = parse F s := by
  have h1 : parseExpr F (w ++ s) = parseExpr F s := by
    rw [parseExpr_lim, parseExpr_lim, lim_expr, lim_expr, pExpr, pExpr, skipWs_blank h]
  exact ⟨h1, by unfold parse; rw [h1]⟩

example : Blank (asc " ; hello\n\t") := by
  have e : asc " ; hello\n\t" = 32 :: (59 :: ([32, 104, 101, 108, 108, 111] ++ 10 :: [9])) := by decide +kernel
  rw [e]
  refine .space (by decide) (.comment (t := [32, 104, 101, 108, 108, 111]) (w := [9]) ?_ (.space (by decide) .nil))
  decide +kernel

/-- A text that is read as the datum `d`, whatever follows it, and does not start with a dot. -/
structure Token (F : FloIO) (t : Bytes) (d : D) : Prop where
  reads : ∀ rest, Ends rest → parseExpr F (t ++ rest) = .ok d rest
  first : ∃ c u, t = c :: u ∧ c ∉ [32, 9, 10, 11, 12, 13, 59, 0, 41, 44, 46]

/-- Tokens with blanks after them: at least one blank between two tokens. -/
inductive Items (F : FloIO) : Bytes → D → Prop
  | nil : Items F [] .nil
  | last {t d w} : Token F t d → Blank w → Items F (t ++ w) (.pair d .nil)
  | cons {t d w s ds} : Token F t d → Blank w → w ≠ [] → Items F s ds → Items F (t ++ (w ++ s)) (.pair d ds)

theorem Token.start {t : Bytes} {d : D} (h : Token F t d) : StartOk t := by
  obtain ⟨c, u, rfl, hc⟩ := h.first
  refine startOk_cons u ?_
  exact (show ∀ c : UInt8, c ∉ [(32 : UInt8), 9, 10, 11, 12, 13, 59, 0, 41, 44, 46] →
    isSpace c = false ∧ c ≠ 59 ∧ c ≠ 0 ∧ c ≠ 41 ∧ c ≠ 44 ∧ c ≠ 46 by decide +kernel) c hc

theorem Blank.ends {w : Bytes} (h : Blank w) (h0 : w ≠ []) (s : Bytes) : Ends (w ++ s) := by
  cases h with
  | nil => exact absurd rfl h0
  | @space c w hc _ => exact .inr ⟨c, w ++ s, rfl, (show ∀ c : UInt8, c ∈ [(32 : UInt8), 9, 10, 11, 12, 13] → c ∈ [(0 : UInt8), 32, 9, 10, 11, 12, 13, 40, 41, 59] by decide +kernel) c hc⟩
  | @comment t w _ _ => exact .inr ⟨59, _, rfl, by decide⟩

theorem items_read {s : Bytes} {ds : D} (h : Items F s ds) (rest : Bytes) : lim F .items (skipWs (s ++ 41 :: rest)) = .ok ds rest := by
  have h41 : skipWs (41 :: rest) = 41 :: rest := skipWs_id (by decide) (by decide)
  induction h with
  | nil => rw [List.nil_append, h41, items_close]
  | @last t d w ht hw =>
    have he : Ends (w ++ 41 :: rest) := by
      cases w with
      | nil => exact .inr ⟨41, rest, rfl, by decide⟩
      | cons c u => exact Blank.ends hw (by simp) _
    rw [List.append_assoc, skip_start ht.start,
      items_elem (ht.start.append _) (by rw [← parseExpr_lim]; exact ht.reads _ he), skipWs_blank hw, h41, pDot_next (.inr rfl), items_close]
    rfl
  | @cons t d w s ds ht hw h0 hs ih =>
    rw [List.append_assoc, skip_start ht.start,
      items_elem (ht.start.append _) (by rw [← parseExpr_lim, List.append_assoc]; exact ht.reads _ (Blank.ends hw h0 _))]
    rw [skipWs_blank hw]
    have hst : StartOk (skipWs (s ++ 41 :: rest)) ∨ cur (skipWs (s ++ 41 :: rest)) = 41 := by
      cases hs with
      | nil => right; rw [List.nil_append, h41]; rfl
      | last ht' _ => left; rw [List.append_assoc, skip_start ht'.start]; exact ht'.start.append _
      | cons ht' _ _ _ => left; rw [List.append_assoc, skip_start ht'.start]; exact ht'.start.append _
    rw [pDot_next hst, ih]
    rfl

/-- White space and comments around the elements of a list change nothing: whatever the blanks, the list of the data is read. -/
theorem c69_list {w s : Bytes} {ds : D} (hw : Blank w) (hs : Items F s ds) (rest : Bytes) :
    parseExpr F (40 :: (w ++ s ++ 41 :: rest)) = .ok ds rest := by
  rw [parseExpr_lim, lim_expr]
  unfold pExpr
  rw [skipWs_id (by decide) (by decide)]
  have e2 : ∀ (a b c d e f : R), (if (40 : UInt8) == 0 then a else if (40 : UInt8) == 39 then b else if (40 : UInt8) == 96 then c else
      if (40 : UInt8) == 40 then d else if (40 : UInt8) == 34 then e else f) = d := by intros; rfl
  refine (e2 _ _ _ _ _ _).trans ?_
  rw [lim_eq]
  show pList _ _ = _
  unfold pList
  simp only [cur_cons, beq_self_eq_true, ↓reduceIte, adv_one]
  rw [List.append_assoc, skipWs_blank hw]
  have hi := items_read hs rest
  split
  · rename_i h
    obtain ⟨t, ht⟩ := cur_beq h (by decide)
    rw [ht] at hi ⊢
    rw [items_close] at hi
    rw [adv_one]
    exact hi ▸ rfl
  · exact hi

/-- Written readable data are tokens, unless they are symbols that start with a dot. -/
theorem c69_tokens {d : D} (hr : Readable .datum d) (hd : ∀ t, d ≠ .sym (46 :: t)) : ∃ d', Token F (print F true d) d' ∧ norm d' = norm d := by
  refine ⟨canon d, ⟨fun rest he => ?_, ?_⟩, norm_canon d⟩
  · rw [parseExpr_lim]
    exact (back d).1 hr _ rest (ends_iff.1 he)
  · obtain ⟨c, t, he, h1, h2, h3, h4, h5, h6⟩ := pr_start (F := F) d ⟨false, false⟩ hr
    refine ⟨c, t, he, ?_⟩
    have h46 : c ≠ 46 := by
      rintro rfl
      cases d with
      | sym s =>
        have : print F true (.sym s) = s := (symOk_cstr hr).2.2
        unfold print at this
        rw [he] at this
        exact hd t (by rw [this])
      | num n =>
        obtain ⟨e, u, hct, hc, _⟩ := printD_start n.natAbs
        have he : printLld n = 46 :: t := he
        unfold printLld at he
        split at he
        · simp at he
        · rw [hct] at he
          simp only [List.nil_append, List.cons.injEq] at he
          rw [he.1] at hc
          exact absurd hc (by decide)
      | chr x =>
        obtain ⟨u, hu⟩ := charText_start x
        have he : charText true x = 46 :: t := he
        rw [hu] at he
        simp at he
      | nil => exact absurd he (by simp [pr, asc])
      | bool b => cases b <;> exact absurd he (by simp [pr, asc])
      | str s => exact absurd he (by simp [pr, strText])
      | vec e => exact absurd he (by simp [pr, asc])
      | pair a d =>
        rcases pr_pair (F := F) (c := ⟨false, false⟩) hr with ⟨_, hx, _⟩ | ⟨c', hx⟩
        · simp [tickCtx] at hx
        · rw [hx] at he
          simp at he
      | flo b => exact absurd hr id
      | ratio n d => exact absurd hr id
      | dot x => exact absurd hr id
    exact (show ∀ c : UInt8, isSpace c = false → c ≠ 59 → c ≠ 0 → c ≠ 41 → c ≠ 44 → c ≠ 46 → c ∉ [(32 : UInt8), 9, 10, 11, 12, 13, 59, 0, 41, 44, 46] by
      decide +kernel) c h1 h2 h3 h4 h5 h46

/-- `1 ;x⏎ "a" ` is such a sequence of elements. -/
example : ∃ ds, Items Demo.F0 (asc "1 ;x\n \"a\" ") ds := by
  obtain ⟨d1, h1, _⟩ := c69_tokens (F := Demo.F0) (d := .num 1) (by unfold Readable; decide) (by simp)
  obtain ⟨d2, h2, _⟩ := c69_tokens (F := Demo.F0) (d := .str (asc "a")) (by unfold Readable StrByte; decide +kernel) (by simp)
  have e1 : print Demo.F0 true (.num 1) = asc "1" := by decide +kernel
  have e2 : print Demo.F0 true (.str (asc "a")) = asc "\"a\"" := by decide +kernel
  rw [e1] at h1
  rw [e2] at h2
  have e : asc "1 ;x\n \"a\" " = asc "1" ++ ((32 :: 59 :: ([120] ++ 10 :: [32])) ++ (asc "\"a\"" ++ [32])) := by decide +kernel
  rw [e]
  refine ⟨_, Items.cons h1 (.space (by decide) (.comment (t := [120]) (w := [32]) ?_ (.space (by decide) .nil))) (by simp)
    (.last h2 (.space (by decide) .nil))⟩
  decide +kernel

/-- Between a quotation mark and a comma a blank does matter: `',a` is read, `' ,a` is an error. -/
theorem c69_quote_counterexample :
    parse Demo.F0 (asc "',a") = .ok (form "quote" (form "unquote" (.sym (asc "a")))) [] ∧ parse Demo.F0 (asc "' ,a") = .err := by
  decide +kernel

end Pscm
