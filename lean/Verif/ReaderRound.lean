import Verif.ReaderLemmas
import Verif.ReaderSpec
/-! # Lemmas: reading back what the printer wrote -/
namespace Pscm.Rd
open Spec
variable {F : FloIO}

/-- Statements about all bytes are decidable. -/
instance decByte (p : UInt8 → Prop) [DecidablePred p] : Decidable (∀ c, p c) :=
  decidable_of_iff (∀ i : Fin 256, p (UInt8.ofFin i)) ⟨fun h c => h c.toFin, fun h i => h _⟩

/-! ## Blanks -/

theorem isSpace_iff {c : UInt8} : isSpace c = true ↔ c ∈ [32, 9, 10, 11, 12, 13] :=
  (show ∀ c : UInt8, isSpace c = true ↔ c ∈ [32, 9, 10, 11, 12, 13] by decide +kernel) c

theorem skip_comment : ∀ (t : Bytes) (w : Bytes), (∀ c ∈ t, c ≠ 10 ∧ c ≠ 0) → skip true (t ++ 10 :: w) = skip false w
  | [], w, _ => by simp [skip]
  | c :: t, w, h => by
    have hc := h c (by simp)
    show skip true (c :: (t ++ 10 :: w)) = _
    rw [skip]
    simp only [↓reduceIte, beq_iff_eq, hc.1, hc.2]
    exact skip_comment t w fun c hc => h c (by simp [hc])

theorem skipWs_blank {w : Bytes} (h : Blank w) (s : Bytes) : skipWs (w ++ s) = skipWs s := by
  induction h with
  | nil => rfl
  | space hc _ ih =>
    show skip false (_ :: _) = _
    rw [skip]
    simp only [Bool.false_eq_true, ↓reduceIte, isSpace_iff.2 hc]
    exact ih
  | @comment t w ht _ ih =>
    show skip false (59 :: ((t ++ 10 :: w) ++ s)) = _
    rw [skip]
    have : isSpace 59 = false := by decide
    simp only [Bool.false_eq_true, ↓reduceIte, this, beq_self_eq_true]
    rw [List.append_assoc, List.cons_append, skip_comment t _ ht]
    exact ih

/-- Nothing to skip. -/
theorem skipWs_id {c : UInt8} {t : Bytes} (h1 : isSpace c = false) (h2 : c ≠ 59) : skipWs (c :: t) = c :: t := by
  show skip false (c :: t) = _
  rw [skip]
  simp [h1, h2]

theorem skipWs_skip (r : Bytes) : skipWs (skipWs r) = skipWs r := by
  have key : ∀ (b : Bool) (r : Bytes), skipWs (skip b r) = skip b r := by
    intro b r
    induction r generalizing b with
    | nil => cases b <;> rfl
    | cons c t ih =>
      rw [skip]
      split
      · split
        · exact ih false
        · split
          · rename_i h
            have : c = 0 := by simpa using h
            subst this
            exact skipWs_id (by decide) (by decide)
          · exact ih true
      · split
        · exact ih false
        · split
          · exact ih true
          · rename_i h1 h2
            exact skipWs_id (by simpa using h1) (by simpa using h2)
  exact key false r

/-! ## Delimiters -/

theorem isEnd_iff {c : UInt8} : isEnd c = true ↔ c ∈ [0, 32, 9, 10, 11, 12, 13, 40, 41, 59] :=
  (show ∀ c : UInt8, isEnd c = true ↔ c ∈ [0, 32, 9, 10, 11, 12, 13, 40, 41, 59] by decide +kernel) c

theorem ends_iff {rest : Bytes} : Ends rest ↔ isEnd (cur rest) = true := by
  cases rest with
  | nil => simp [Ends, isEnd]
  | cons c t => simp [Ends, isEnd_iff]

theorem end_not_digit : ∀ c : UInt8, isEnd c = true → isDigit c = false := by decide +kernel
theorem end_not_alpha : ∀ c : UInt8, isEnd c = true → isAlpha c = false := by decide +kernel
theorem end_not_misc : ∀ c : UInt8, isEnd c = true → (c == 46) = false ∧ (c == 101 || c == 69) = false ∧ (c == 92) = false := by decide +kernel
theorem end_not_const : ∀ c : UInt8, isEnd c = true → isConst c = false := by decide +kernel
theorem const_facts : ∀ c : UInt8, isConst c = true → isSpace c = false ∧ c ≠ 59 ∧ c ≠ 0 ∧ c ≠ 39 ∧ c ≠ 96 ∧ c ≠ 40 ∧ c ≠ 34 ∧ c ≠ 35 ∧ c ≠ 44 ∧
    c ≠ 41 ∧ c ≠ 92 := by decide +kernel
theorem digit_facts : ∀ c : UInt8, isDigit c = true → isConst c = true ∧ c ≠ 43 ∧ c ≠ 45 ∧ c ≠ 46 := by decide +kernel

theorem symChar_iff {c : UInt8} : symChar c ↔ isConst c = true := by
  unfold symChar letter digit
  revert c
  exact (show ∀ c : UInt8, ((65 ≤ c ∧ c ≤ 90) ∨ (97 ≤ c ∧ c ≤ 122)) ∨ (48 ≤ c ∧ c ≤ 57) ∨ c ∈ asc "!$%&*+-./:<=>?@^_~|" ↔ isConst c = true by
    decide +kernel) _

theorem digit_iff {c : UInt8} : digit c ↔ isDigit c = true := by
  unfold digit
  exact (show ∀ c : UInt8, 48 ≤ c ∧ c ≤ 57 ↔ isDigit c = true by decide +kernel) c

theorem takeWhile_append_stop {p : UInt8 → Bool} {a rest : Bytes} (ha : ∀ c ∈ a, p c = true) (hr : p (cur rest) = false ∨ rest = []) :
    (a ++ rest).takeWhile p = a ∧ (a ++ rest).dropWhile p = rest := by
  induction a with
  | nil =>
    cases rest with
    | nil => simp
    | cons c t =>
      have : p c = false := by simpa using hr
      simp [List.takeWhile_cons, List.dropWhile_cons, this]
  | cons c t ih =>
    have hc := ha c (by simp)
    obtain ⟨h1, h2⟩ := ih fun c h => ha c (by simp [h])
    rw [List.cons_append, List.takeWhile_cons, List.dropWhile_cons, if_pos hc, if_pos hc, h1, h2]
    exact ⟨rfl, rfl⟩

/-! ## Numbers -/

theorem decLoop_digits : ∀ (fuel n : Nat), ∀ c ∈ decLoop fuel n, isDigit c = true
  | 0, _, c, h => by simp [decLoop] at h
  | fuel + 1, n, c, h => by
    have hd : ∀ k, k < 10 → isDigit (48 + k).toUInt8 = true := by decide
    unfold decLoop at h
    split at h
    · have : c = (48 + n).toUInt8 := by simpa using h
      rw [this]
      exact hd n (by omega)
    · rcases List.mem_append.1 h with h | h
      · exact decLoop_digits fuel _ c h
      · have : c = (48 + n % 10).toUInt8 := by simpa using h
        rw [this]
        exact hd _ (Nat.mod_lt _ (by omega))

theorem decLoop_ne_nil (fuel n : Nat) : decLoop (fuel + 1) n ≠ [] := by
  unfold decLoop
  split <;> simp

theorem accum_append (a b : Bytes) (n : Int) : accum n (a ++ b) = (accum n a).bind fun m => accum m b := by
  induction a generalizing n with
  | nil => rfl
  | cons c t ih =>
    rw [List.cons_append, accum, accum]
    split
    · exact ih _
    · rfl

theorem digit_val : ∀ k, k < 10 → (((48 + k : Nat).toUInt8.toNat : Nat) : Int) - 48 = k := by decide

theorem accum_decLoop (fuel : Nat) : ∀ n : Nat, n < fuel → (n : Int) < 2 ^ 63 → accum 0 (decLoop fuel n) = some (n : Int) := by
  induction fuel with
  | zero =>
    intro n h
    omega
  | succ fuel ih =>
    intro n h hb
    unfold decLoop
    by_cases h10 : n < 10
    · rw [if_pos h10]
      unfold accum
      rw [digit_val n h10, if_pos]
      · simp [accum]
      · constructor <;> constructor <;> omega
    · rw [if_neg h10, accum_append, ih (n / 10) (by omega) (by omega), Option.bind_some]
      unfold accum
      have hm := digit_val (n % 10) (Nat.mod_lt _ (by omega))
      rw [hm, if_pos]
      · simp only [accum, Option.some.injEq]
        omega
      · constructor <;> constructor <;> omega

theorem isDigit_end {rest : Bytes} (h : isEnd (cur rest) = true) : isDigit (cur rest) = false := end_not_digit _ h

theorem pDigits_print {neg : Bool} {n : Nat} {rest : Bytes} (hb : (n : Int) < 2 ^ 63) (h : isEnd (cur rest) = true) :
    pDigits F neg (printD n ++ rest) = .ok (.num (if neg then -n else n)) rest := by
  obtain ⟨h1, h2⟩ := takeWhile_append_stop (a := printD n) (rest := rest) (decLoop_digits _ _) (.inl (isDigit_end h))
  unfold pDigits
  rw [h1, h2]
  unfold printD
  rw [accum_decLoop (n + 1) n (by omega) hb]
  have h46 : (cur rest == 46) = false := (end_not_misc _ h).1
  have he : (cur rest == 101 || cur rest == 69) = false := (end_not_misc _ h).2.1
  simp only [h46, Bool.false_eq_true, ↓reduceIte, pTail, he]

theorem printD_start (n : Nat) : ∃ c t, printD n = c :: t ∧ isDigit c = true ∧ ∀ d ∈ t, isDigit d = true := by
  have h := decLoop_ne_nil n n
  have hd := decLoop_digits (n + 1) n
  unfold printD
  cases hp : decLoop (n + 1) n with
  | nil => exact absurd hp h
  | cons c t =>
    rw [hp] at hd
    exact ⟨c, t, rfl, hd c (by simp), fun d h => hd d (by simp [h])⟩

/-! ## The parts of `parse_expr` -/

/-- The first byte of a token that is neither special nor `#`. -/
def PlainStart (c : UInt8) : Prop := isSpace c = false ∧ c ≠ 59 ∧ c ≠ 0 ∧ c ≠ 39 ∧ c ≠ 96 ∧ c ≠ 40 ∧ c ≠ 34

theorem lim_expr (r : Bytes) : lim F .expr r = pExpr F (lim F) r := lim_eq _ _

theorem expr_hash {c : UInt8} {t : Bytes} (h : PlainStart c) : lim F .expr (c :: t) = pHash F (lim F) (c :: t) := by
  rw [lim_expr, pExpr, skipWs_id h.1 h.2.1]
  obtain ⟨_, _, h0, h1, h2, h3, h4⟩ := h
  simp [h0, h1, h2, h3, h4]

theorem expr_atom {c : UInt8} {t : Bytes} (h : PlainStart c) (h35 : c ≠ 35) : lim F .expr (c :: t) = pAtom F (c :: t) := by
  rw [expr_hash h, pHash, lim_eq]
  simp [h35, pChar, step, pVec, orElse]

theorem PlainStart.of_const {c : UInt8} (h : isConst c = true) : PlainStart c ∧ c ≠ 35 := by
  obtain ⟨h1, h2, h3, h4, h5, h6, h7, h8, _⟩ := const_facts c h
  exact ⟨⟨h1, h2, h3, h4, h5, h6, h7⟩, h8⟩

theorem litEnd_no {a b : UInt8} {r : Bytes} {y n : R} (h : ∀ t, r = a :: b :: t → isEnd (cur t) = false) (ha : a ≠ 0) (hb : b ≠ 0) :
    litEnd a b r y n = n := by
  unfold litEnd
  split
  · rename_i h1
    obtain ⟨t, rfl⟩ := cur_beq h1 ha
    rw [look_one]
    split
    · rename_i h2
      obtain ⟨u, rfl⟩ := cur_beq h2 hb
      rw [look_two, h u rfl]
      rfl
    · rfl
  · rfl

/-! ## Reading back atoms -/

theorem read_num {n : Int} {rest : Bytes} (h1 : -(2:Int)^63 < n) (h2 : n < (2:Int)^63) (h : isEnd (cur rest) = true) :
    lim F .expr (printLld n ++ rest) = .ok (.num n) rest := by
  obtain ⟨c, t, hct, hc, ht⟩ := printD_start n.natAbs
  have hno : ∀ b : UInt8, isConst b = true → isDigit b = false → ∀ u, printD n.natAbs ++ rest = 49 :: b :: u → isEnd (cur u) = false := by
    intro b hb hbd u hu
    rw [hct] at hu
    cases t with
    | nil =>
      rw [List.cons_append, List.nil_append] at hu
      injection hu with _ hu
      rw [hu, cur_cons] at h
      rw [end_not_const b h] at hb
      cases hb
    | cons d t =>
      simp only [List.cons_append, List.cons.injEq] at hu
      have := ht d (by simp)
      rw [hu.2.1, hbd] at this
      cases this
  by_cases hn : n < 0
  · have e : printLld n = 45 :: printD n.natAbs := by simp [printLld, hn]
    have hs : PlainStart 45 ∧ (45 : UInt8) ≠ 35 := PlainStart.of_const (by decide)
    rw [e, List.cons_append, expr_atom hs.1 hs.2]
    unfold pAtom
    dsimp only
    rw [litEnd_no (by simp) (by decide) (by decide), litEnd_no (by simp) (by decide) (by decide)]
    have hnum : pNumber F (45 :: (printD n.natAbs ++ rest)) = .ok (.num n) rest := by
      unfold pNumber
      simp only [cur_cons, beq_self_eq_true, ↓reduceIte, look_one]
      rw [hct, List.cons_append, cur_cons, if_pos hc, adv_one, ← List.cons_append, ← hct, pDigits_print (by omega) h]
      congr 2
      simp only [↓reduceIte]
      omega
    rw [hnum]
    rfl
  · have e : printLld n = printD n.natAbs := by simp [printLld, hn]
    have hs : PlainStart c ∧ c ≠ 35 := PlainStart.of_const (digit_facts c hc).1
    have hat : lim F .expr (printD n.natAbs ++ rest) = pAtom F (printD n.natAbs ++ rest) := by
      rw [hct]
      exact expr_atom hs.1 hs.2
    rw [e, hat]
    unfold pAtom
    dsimp only
    rw [litEnd_no (hno 43 (by decide) (by decide)) (by decide) (by decide),
      litEnd_no (hno 45 (by decide) (by decide)) (by decide) (by decide)]
    have hnum : pNumber F (printD n.natAbs ++ rest) = .ok (.num n) rest := by
      obtain ⟨_, h43, h45, _⟩ := digit_facts c hc
      unfold pNumber
      have hcur : cur (printD n.natAbs ++ rest) = c := by rw [hct]; rfl
      simp only [hcur, beq_iff_eq, h43, h45, ↓reduceIte, hc]
      rw [pDigits_print (by omega) h]
      congr 2
      simp only [Bool.false_eq_true, ↓reduceIte]
      omega
    rw [hnum]
    rfl

theorem scanSym_const : ∀ (s rest : Bytes), (∀ c ∈ s, isConst c = true) → isEnd (cur rest) = true → scanSym (s ++ rest) = (s, rest)
  | [], [], _, _ => rfl
  | [], [c], _, hr => by
    have hr : isEnd c = true := hr
    have h1 := end_not_const c hr
    have h2 : (c == 92) = false := (end_not_misc _ hr).2.2
    simp [scanSym, h1, h2]
  | [], c :: d :: u, _, hr => by
    have hr : isEnd c = true := hr
    have h1 := end_not_const c hr
    have h2 : (c == 92) = false := (end_not_misc _ hr).2.2
    simp [scanSym, h1, h2]
  | c :: s, rest, hs, hr => by
    have hc := hs c (by simp)
    have hne := (const_facts c hc).2.2.2.2.2.2.2.2.2.2
    have ih := scanSym_const s rest (fun c h => hs c (by simp [h])) hr
    rw [List.cons_append]
    cases hx : s ++ rest with
    | nil =>
      obtain ⟨rfl, rfl⟩ := List.append_eq_nil_iff.1 hx
      simp [scanSym, hc]
    | cons d u =>
      rw [hx] at ih
      simp [scanSym, hc, hne, ih]

theorem symName_const : ∀ (s : Bytes), (∀ c ∈ s, isConst c = true) → symName s = s
  | [], _ => rfl
  | [c], h => by
    have hne := (const_facts c (h c (by simp))).2.2.2.2.2.2.2.2.2.2
    simp [symName, hne]
  | c :: d :: u, h => by
    have hne := (const_facts c (h c (by simp))).2.2.2.2.2.2.2.2.2.2
    have ih := symName_const (d :: u) fun c hc => h c (List.mem_cons_of_mem _ hc)
    simp [symName, hne, ih]

theorem pSymbol_const {s rest : Bytes} (hs : ∀ c ∈ s, isConst c = true) (h0 : s ≠ []) (hr : isEnd (cur rest) = true) :
    pSymbol (s ++ rest) = .ok (.sym s) rest := by
  unfold pSymbol
  have h35 : ∀ b t, s ++ rest ≠ 35 :: b :: t := by
    intro b t h
    cases s with
    | nil => exact h0 rfl
    | cons c u =>
      simp only [List.cons_append, List.cons.injEq] at h
      exact (const_facts c (hs c (by simp))).2.2.2.2.2.2.2.1 h.1
  rw [litEnd_no (fun t h => absurd h (h35 _ _)) (by decide) (by decide), litEnd_no (fun t h => absurd h (h35 _ _)) (by decide) (by decide),
    scanSym_const s rest hs hr]
  simp [h0, symName_const s hs]

theorem read_sym {s rest : Bytes} (hs : SymOk s) (h : isEnd (cur rest) = true) : lim F .expr (s ++ rest) = .ok (.sym s) rest := by
  have hc : ∀ c ∈ s, isConst c = true := fun c h => symChar_iff.1 (hs.chars c h)
  have hp := pSymbol_const hc hs.nonempty h
  cases s with
  | nil => exact absurd rfl hs.nonempty
  | cons c t =>
    have hst := PlainStart.of_const (hc c (by simp))
    rw [List.cons_append, expr_atom hst.1 hst.2, ← List.cons_append]
    unfold pAtom
    dsimp only
    rw [hp]
    have hone : ∀ x, Rd.orElse (.ok (.sym (c :: t)) rest) x = .ok (.sym (c :: t)) rest := fun _ => rfl
    rw [hone, hone]
    by_cases hd : isDigit c = true
    · have key : ∀ b : UInt8, b ≠ 0 → c :: t = [49, b] → ∀ n, litEnd 49 b (c :: t ++ rest) (.ok (.sym (c :: t)) rest) n = .ok (.sym (c :: t)) rest := by
        intro b hb he n
        rw [he]
        simp [litEnd, h]
      rcases hs.number c t rfl (digit_iff.2 hd) with h1 | h1
      · exact key 43 (by decide) h1 _
      · have e := key 45 (by decide) h1
        rw [e]
        refine litEnd_no (fun u hu => ?_) (by decide) (by decide)
        rw [h1] at hu
        exact absurd hu (by simp [asc])
    · have hnum : pNumber F (c :: t ++ rest) = .null (c :: t ++ rest) := by
        have hsig : ∀ b ∈ [(43 : UInt8), 45], c = b → isDigit (cur (t ++ rest)) = false := by
          intro b hb he
          cases t with
          | nil => exact isDigit_end h
          | cons d u =>
            have := hs.signed c d u rfl (he ▸ hb)
            rw [digit_iff] at this
            simpa using this
        unfold pNumber
        rw [List.cons_append]
        simp only [cur_cons, look_one, beq_iff_eq, hd, Bool.false_eq_true, ↓reduceIte]
        split
        · rw [hsig 45 (by simp) ‹_›]
          rfl
        · split
          · rw [hsig 43 (by simp) ‹_›]
            rfl
          · rfl
      have h49 : ∀ b u, c :: t ++ rest ≠ 49 :: b :: u := by
        intro b u he
        simp only [List.cons_append, List.cons.injEq] at he
        rw [he.1] at hd
        exact hd (by decide)
      rw [litEnd_no (fun u hu => absurd hu (h49 _ _)) (by decide) (by decide),
        litEnd_no (fun u hu => absurd hu (h49 _ _)) (by decide) (by decide), hnum]
      rfl

theorem read_bool (b : Bool) {rest : Bytes} (h : isEnd (cur rest) = true) :
    lim F .expr ((if b then asc "#t" else asc "#f") ++ rest) = .ok (.bool b) rest := by
  have hs : PlainStart 35 := ⟨by decide, by decide, by decide, by decide, by decide, by decide, by decide⟩
  have key : ∀ x : UInt8, x ∈ [(116 : UInt8), 102] → lim F .expr (35 :: x :: rest) = pSymbol (35 :: x :: rest) := by
    intro x hx
    rw [expr_hash hs, pHash, lim_eq]
    have : x ≠ 58 ∧ x ≠ 123 ∧ x ≠ 92 ∧ x ≠ 40 :=
      (show ∀ x : UInt8, x ∈ [(116 : UInt8), 102] → x ≠ 58 ∧ x ≠ 123 ∧ x ≠ 92 ∧ x ≠ 40 by decide +kernel) x hx
    simp only [cur_cons, beq_self_eq_true, ↓reduceIte, look_one, beq_iff_eq, this, pChar, step, pVec, Rd.orElse, pAtom, litEnd]
    have hp : pNumber F (35 :: x :: rest) = .null (35 :: x :: rest) := by
      simp [pNumber, show isDigit 35 = false by decide]
    rw [hp]
    have : ∃ d r, pSymbol (35 :: x :: rest) = .ok d r := by
      simp only [List.mem_cons, List.not_mem_nil, or_false] at hx
      rcases hx with rfl | rfl
      · exact ⟨_, _, by simp [pSymbol, litEnd, h]; exact ⟨rfl, rfl⟩⟩
      · exact ⟨_, _, by simp [pSymbol, litEnd, h]; exact ⟨rfl, rfl⟩⟩
    obtain ⟨d, r, hd⟩ := this
    rw [hd]
    simp
  cases b with
  | true =>
    show lim F .expr (35 :: 116 :: rest) = _
    rw [key 116 (by simp)]
    simp [pSymbol, litEnd, h]
  | false =>
    show lim F .expr (35 :: 102 :: rest) = _
    rw [key 102 (by simp)]
    simp [pSymbol, litEnd, h]

/-- `#\` always goes to `parse_char`. -/
theorem expr_char (t : Bytes) : lim F .expr (35 :: 92 :: t) = Rd.orElse (pChar (35 :: 92 :: t)) .err := by
  have hs : PlainStart 35 := ⟨by decide, by decide, by decide, by decide, by decide, by decide, by decide⟩
  have hnn : ∀ r, pChar (35 :: 92 :: t) ≠ .null r := by
    intro r
    unfold pChar
    simp only [cur_cons, beq_self_eq_true, ↓reduceIte, look_one, adv_two]
    split
    · simp
    · rename_i h0
      obtain ⟨c, v, rfl, _⟩ := cur_pos (by simpa using h0)
      simp only [adv_one, cur_cons]
      repeat' split
      all_goals simp
  rw [expr_hash hs, pHash]
  have e : ∀ (a b c : R), (if (35 : UInt8) == 35 then (if (92 : UInt8) == 58 then a else if (92 : UInt8) == 123 then b else c) else c) = c := by
    intros; rfl
  simp only [look_one]
  refine (e _ _ _).trans ?_
  cases h : pChar (35 :: 92 :: t) with
  | null r => exact absurd h (hnn r)
  | _ => rfl

theorem charName_single (c : UInt8) : charName [c] = none := by
  unfold charName
  simp [asc]

theorem pChar_print {c : UInt8} {rest : Bytes} (h0 : c ≠ 0) (h : isEnd (cur rest) = true) :
    pChar (charText true c ++ rest) = .ok (.chr c) rest := by
  have hal : isAlpha (cur rest) = false := end_not_alpha _ h
  have hname : ∀ (s : Bytes) (k : UInt8), (∀ c ∈ s, isAlpha c = true) → s ≠ [] → charName s = some k →
      pChar (35 :: 92 :: (s ++ rest)) = .ok (.chr k) rest := by
    intro s k hs hne hk
    cases s with
    | nil => exact absurd rfl hne
    | cons a t =>
      obtain ⟨h1, h2⟩ := takeWhile_append_stop (rest := rest) hs (.inl hal)
      have ha := hs a (by simp)
      have haf : isSpace a = false ∧ a ≠ 0 := (show ∀ a : UInt8, isAlpha a = true → isSpace a = false ∧ a ≠ 0 by decide +kernel) a ha
      unfold pChar
      rw [List.cons_append] at h1 h2
      simp [ha, haf, h1, h2, hk]
  unfold charText
  simp only [↓reduceIte, beq_iff_eq]
  split
  · subst c
    exact hname (asc "space") 32 (by decide +kernel) (by decide +kernel) (by decide +kernel)
  split
  · subst c
    exact hname (asc "newline") 10 (by decide +kernel) (by decide +kernel) (by decide +kernel)
  split
  · subst c
    exact hname (asc "ht") 9 (by decide +kernel) (by decide +kernel) (by decide +kernel)
  · show pChar (35 :: 92 :: c :: rest) = _
    unfold pChar
    simp only [cur_cons, beq_self_eq_true, ↓reduceIte, look_one, adv_two, adv_one]
    rw [if_neg (by simpa using h0)]
    split
    · rfl
    · split
      · rename_i ha
        have h1 : (c :: rest).takeWhile isAlpha = [c] := by
          have := (takeWhile_append_stop (p := isAlpha) (a := [c]) (rest := rest) (by simpa using ha) (.inl hal)).1
          simpa using this
        rw [h1, charName_single]
      · rfl

theorem read_chr {c : UInt8} {rest : Bytes} (h0 : c ≠ 0) (h : isEnd (cur rest) = true) :
    lim F .expr (charText true c ++ rest) = .ok (.chr c) rest := by
  have hp := pChar_print h0 h
  have : ∃ t, charText true c ++ rest = 35 :: 92 :: t := by
    unfold charText
    simp only [↓reduceIte]
    repeat' split
    all_goals exact ⟨_, rfl⟩
  obtain ⟨t, ht⟩ := this
  rw [ht] at hp ⊢
  rw [expr_char, hp]
  rfl

/-! ### Strings -/

/-- What is read back for one byte of a written string. -/
def rtByte (c : UInt8) : Bytes := if StrByteB c then [c] else [48 + c / 64, 48 + c / 8 % 8, 48 + c % 8]
where
  StrByteB (c : UInt8) : Bool := (32 ≤ c && c < 127) || c == 9 || c == 10 || c == 13

theorem strByte_iff {c : UInt8} : StrByte c ↔ rtByte.StrByteB c = true := by
  unfold StrByte
  exact (show ∀ c : UInt8, 32 ≤ c ∧ c < 127 ∨ c ∈ [9, 10, 13] ↔ rtByte.StrByteB c = true by decide +kernel) c

/-- Shape of one escaped byte. -/
theorem escChar_scan (c : UInt8) (rest : Bytes) :
    scanStr false (escChar c ++ rest) = (scanStr false rest).map (fun x => (escChar c ++ x.1, x.2)) ∧
    ∀ t, unescape false (escChar c ++ t) = rtByte c ++ unescape false t := by
  have hform : (∃ a, escChar c = [92, a] ∧ a ≠ 0 ∧ rtByte c = [unesc a]) ∨
      (∃ a, escChar c = [a] ∧ a ≠ 0 ∧ a ≠ 92 ∧ a ≠ 34 ∧ rtByte c = [a]) ∨
      (∃ x y z, escChar c = [92, x, y, z] ∧ x ≠ 0 ∧ x ≠ 92 ∧ (y ≠ 0 ∧ y ≠ 92 ∧ y ≠ 34) ∧ (z ≠ 0 ∧ z ≠ 92 ∧ z ≠ 34) ∧ unesc x = x ∧ rtByte c = [x, y, z]) := by
    have key : ∀ c : UInt8,
        ((escChar c).length = 2 ∧ (escChar c).getD 0 0 = 92 ∧ (escChar c).getD 1 0 ≠ 0 ∧ rtByte c = [unesc ((escChar c).getD 1 0)]) ∨
        ((escChar c).length = 1 ∧ (escChar c).getD 0 0 ≠ 0 ∧ (escChar c).getD 0 0 ≠ 92 ∧ (escChar c).getD 0 0 ≠ 34 ∧ rtByte c = escChar c) ∨
        ((escChar c).length = 4 ∧ (escChar c).getD 0 0 = 92 ∧ (escChar c).getD 1 0 ≠ 0 ∧ (escChar c).getD 1 0 ≠ 92 ∧
          ((escChar c).getD 2 0 ≠ 0 ∧ (escChar c).getD 2 0 ≠ 92 ∧ (escChar c).getD 2 0 ≠ 34) ∧
          ((escChar c).getD 3 0 ≠ 0 ∧ (escChar c).getD 3 0 ≠ 92 ∧ (escChar c).getD 3 0 ≠ 34) ∧ unesc ((escChar c).getD 1 0) = (escChar c).getD 1 0 ∧
          rtByte c = (escChar c).drop 1) := by decide +kernel
    rcases key c with h | h | h
    · left
      match he : escChar c, h with
      | [a, b], h =>
        simp only [List.getD_cons_zero, List.getD_cons_succ] at h
        obtain ⟨_, rfl, h2, h3⟩ := h
        exact ⟨b, rfl, h2, h3⟩
    · right; left
      match he : escChar c, h with
      | [a], h =>
        simp only [List.getD_cons_zero] at h
        exact ⟨a, rfl, h.2.1, h.2.2.1, h.2.2.2.1, h.2.2.2.2⟩
    · right; right
      match he : escChar c, h with
      | [a, x, y, z], h =>
        simp only [List.getD_cons_zero, List.getD_cons_succ, List.drop_succ_cons, List.drop_zero] at h
        obtain ⟨_, rfl, h2, h3, h4, h5, h6, h7⟩ := h
        exact ⟨x, y, z, rfl, h2, h3, h4, h5, h6, h7⟩
  rcases hform with ⟨a, he, ha, hr⟩ | ⟨a, he, ha, hb, hc, hr⟩ | ⟨x, y, z, he, hx, hx2, hy, hz, hu, hr⟩
  · rw [he, hr]
    constructor
    · simp only [List.cons_append, List.nil_append, scanStr]
      cases scanStr false rest <;> simp [ha]
    · intro t
      simp [unescape]
  · rw [he, hr]
    constructor
    · simp only [List.cons_append, List.nil_append, scanStr]
      cases scanStr false rest <;> simp [ha, hb, hc]
    · intro t
      simp [unescape, hb]
  · rw [he, hr]
    constructor
    · simp only [List.cons_append, List.nil_append, scanStr]
      cases scanStr false rest <;> simp [hx, hy, hz]
    · intro t
      simp [unescape, hy, hz, hu]

theorem scan_escaped (s rest : Bytes) : scanStr false (s.flatMap escChar ++ 34 :: rest) = some (s.flatMap escChar, rest) := by
  induction s with
  | nil => simp [scanStr]
  | cons c t ih =>
    rw [List.flatMap_cons, List.append_assoc, (escChar_scan c _).1, ih]
    rfl

theorem unescape_escaped (s : Bytes) : unescape false (s.flatMap escChar) = s.flatMap rtByte := by
  induction s with
  | nil => rfl
  | cons c t ih => rw [List.flatMap_cons, List.flatMap_cons, (escChar_scan c []).2, ih]

theorem read_str (s rest : Bytes) : lim F .expr (strText true s ++ rest) = .ok (.str (s.flatMap rtByte)) rest := by
  have e : strText true s ++ rest = 34 :: (s.flatMap escChar ++ 34 :: rest) := by simp [strText]
  rw [e, lim_expr, pExpr, skipWs_id (by decide) (by decide)]
  have e2 : ∀ (a b c d e f : R), (if (34 : UInt8) == 0 then a else if (34 : UInt8) == 39 then b else if (34 : UInt8) == 96 then c else
      if (34 : UInt8) == 40 then d else if (34 : UInt8) == 34 then e else f) = e := by intros; rfl
  refine (e2 _ _ _ _ _ _).trans ?_
  rw [pString, adv_one, scan_escaped]
  simp only [unescape_escaped]

theorem rt_ok {s : Bytes} (h : ∀ c ∈ s, StrByte c) : s.flatMap rtByte = s := by
  induction s with
  | nil => rfl
  | cons c t ih =>
    have hc : rtByte c = [c] := by
      unfold rtByte
      rw [if_pos (strByte_iff.1 (h c (by simp)))]
    rw [List.flatMap_cons, hc, ih fun c hc => h c (by simp [hc])]
    rfl

theorem rt_length (s : Bytes) : s.length ≤ (s.flatMap rtByte).length ∧ ((s.flatMap rtByte).length = s.length → ∀ c ∈ s, StrByte c) := by
  induction s with
  | nil => simp
  | cons c t ih =>
    rw [List.flatMap_cons, List.length_append, List.length_cons]
    by_cases hc : rtByte.StrByteB c = true
    · have : (rtByte c).length = 1 := by simp [rtByte, hc]
      refine ⟨by omega, fun h => ?_⟩
      intro d hd
      rcases List.mem_cons.1 hd with rfl | hd
      · exact strByte_iff.2 hc
      · exact ih.2 (by omega) d hd
    · have : (rtByte c).length = 3 := by simp [rtByte, hc]
      exact ⟨by omega, fun h => by omega⟩

end Pscm.Rd
