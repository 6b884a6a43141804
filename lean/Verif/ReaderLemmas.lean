import Verif.Reader
/-! # Lemmas about the reader: progress, termination, independence of the fuel -/
namespace Pscm.Rd
variable {F : FloIO}

/-- A run of at least 19 digits in `r`. -/
def LongDigits (r : Bytes) : Prop := ∃ ds, ds <:+: r ∧ (∀ c ∈ ds, isDigit c = true) ∧ 19 ≤ ds.length

/-- The result respects the buffer: a suffix of the input remains, strictly shorter when a datum was read. -/
def Good (r : Bytes) : R → Prop
  | .ok _ r' => r' <:+ r ∧ r'.length < r.length
  | .null r' => r' <:+ r
  | .err => True
  | .ub => LongDigits r
  | .oob => False
  | .fuel => False

theorem LongDigits.mono {a b : Bytes} (h : a <:+ b) : LongDigits a → LongDigits b
  | ⟨ds, h1, h2⟩ => ⟨ds, h1.trans h.isInfix, h2⟩

/-- `Good` from a later position. -/
theorem Good.later {a b : Bytes} (h : a <:+ b) {x : R} (hg : Good a x) : Good b x := by
  cases x with
  | ok d r => exact ⟨hg.1.trans h, Nat.lt_of_lt_of_le hg.2 h.length_le⟩
  | null r => exact hg.trans h
  | err => trivial
  | ub => exact LongDigits.mono h hg
  | oob => exact hg
  | fuel => exact hg

/-! ## Positions -/

theorem skip_suffix : ∀ (b : Bool) (r : Bytes), skip b r <:+ r
  | _, [] => by simp [skip]
  | b, c :: t => by
    have h1 := (skip_suffix false t).trans (List.suffix_cons c t)
    have h2 := (skip_suffix true t).trans (List.suffix_cons c t)
    unfold skip
    repeat' split
    all_goals first | assumption | exact List.suffix_rfl

theorem skipWs_suffix (r : Bytes) : skipWs r <:+ r := skip_suffix false r

theorem cur_ne {r : Bytes} {c : UInt8} (h : cur r = c) (hc : c ≠ 0) : ∃ t, r = c :: t := by
  cases r with
  | nil => exact absurd h.symm hc
  | cons a t => exact ⟨t, by simpa [cur] using h⟩

theorem cur_beq {r : Bytes} {c : UInt8} (h : (cur r == c) = true) (hc : c ≠ 0) : ∃ t, r = c :: t := cur_ne (by simpa using h) hc

theorem cur_pos {r : Bytes} (h : cur r ≠ 0) : ∃ c t, r = c :: t ∧ c ≠ 0 := by
  cases r with
  | nil => exact absurd rfl h
  | cons a t => exact ⟨a, t, rfl, by simpa [cur] using h⟩

@[simp] theorem cur_cons (c : UInt8) (t : Bytes) : cur (c :: t) = c := rfl
@[simp] theorem cur_nil : cur [] = 0 := rfl
@[simp] theorem look_one (c : UInt8) (t : Bytes) (f : UInt8 → R) : look (c :: t) 1 f = f (cur t) := by
  cases t <;> simp [look, cur]
@[simp] theorem look_two (c d : UInt8) (t : Bytes) (f : UInt8 → R) : look (c :: d :: t) 2 f = f (cur t) := by
  cases t <;> simp [look, cur]
@[simp] theorem adv_one (c : UInt8) (t : Bytes) (f : Bytes → R) : adv (c :: t) 1 f = f t := by simp [adv]
@[simp] theorem adv_two (c d : UInt8) (t : Bytes) (f : Bytes → R) : adv (c :: d :: t) 2 f = f t := by simp [adv]
@[simp] theorem adv_zero (r : Bytes) (f : Bytes → R) : adv r 0 f = f r := by simp [adv]

theorem Good.cons {c : UInt8} {t : Bytes} {x : R} (h : Good t x) : Good (c :: t) x := h.later (List.suffix_cons c t)

theorem Good.ok_cons {c : UInt8} {t : Bytes} {d : D} : Good (c :: t) (.ok d t) := ⟨List.suffix_cons c t, by simp⟩

/-- After at least one byte, any suffix will do. -/
theorem Good.ok_suffix {c : UInt8} {t r : Bytes} {d : D} (h : r <:+ t) : Good (c :: t) (.ok d r) :=
  ⟨h.trans (List.suffix_cons c t), by have := h.length_le; simp; omega⟩

theorem dropWhile_suffix' (p : UInt8 → Bool) (r : Bytes) : r.dropWhile p <:+ r := List.dropWhile_suffix p

/-! ## Atoms -/

theorem accum_bound : ∀ (ds : Bytes) (n : Int), (∀ c ∈ ds, isDigit c = true) → 0 ≤ n → (n + 1) * 10 ^ ds.length ≤ 2 ^ 63 → (accum n ds).isSome
  | [], _, _, _, _ => rfl
  | c :: t, n, hd, hn, hb => by
    have hc : isDigit c = true := hd c (by simp)
    have h1 : 48 ≤ c.toNat ∧ c.toNat ≤ 57 := by simpa [isDigit, UInt8.le_iff_toNat_le] using hc
    have hpow : (1 : Int) ≤ 10 ^ t.length := Int.pow_pos (by omega)
    have e : (n + 1) * 10 ^ (c :: t).length = (n * 10 + 10) * 10 ^ t.length := by
      rw [List.length_cons, Int.pow_succ, Int.mul_comm (10 ^ t.length) 10, ← Int.mul_assoc]
      congr 1
      omega
    rw [e] at hb
    have h2 : (n * 10 + 10) * 1 ≤ (n * 10 + 10) * 10 ^ t.length := Int.mul_le_mul_of_nonneg_left hpow (by omega)
    unfold accum
    have hin : InI64 (n * 10) ∧ InI64 (n * 10 + (c.toNat - 48 : Int)) := by
      constructor <;> constructor <;> omega
    rw [if_pos hin]
    refine accum_bound t _ (fun c hc => hd c (by simp [hc])) (by omega) (Int.le_trans (Int.mul_le_mul_of_nonneg_right ?_ (by omega)) hb)
    omega

theorem accum_long {ds : Bytes} (hd : ∀ c ∈ ds, isDigit c = true) (h : accum 0 ds = none) : 19 ≤ ds.length := by
  by_cases hl : 19 ≤ ds.length
  · exact hl
  · exfalso
    have := accum_bound ds 0 hd (by omega) (by
      have h2 : (10 : Nat) ^ ds.length ≤ 10 ^ 18 := Nat.pow_le_pow_right (by omega) (by omega)
      have h3 : ((10 : Nat) ^ ds.length : Nat) ≤ (2 ^ 63 : Nat) := Nat.le_trans h2 (by decide)
      have h4 : (((10 : Nat) ^ ds.length : Nat) : Int) ≤ ((2 ^ 63 : Nat) : Int) := Int.ofNat_le.2 h3
      rw [Int.natCast_pow] at h4
      simpa using h4)
    rw [h] at this
    exact absurd this (by simp)

theorem takeWhile_digits {p : UInt8 → Bool} (r : Bytes) : ∀ c ∈ r.takeWhile p, p c = true := by
  intro c hc
  exact List.all_takeWhile (l := r) (p := p) |> fun h => by
    rw [List.all_eq_true] at h
    exact h c hc

theorem long_takeWhile {r : Bytes} (h : accum 0 (r.takeWhile isDigit) = none) : LongDigits r :=
  ⟨_, (List.takeWhile_prefix isDigit).isInfix, takeWhile_digits r, accum_long (takeWhile_digits r) h⟩

theorem pExp_good {neg n frac} {r : Bytes} (hr : cur r ≠ 0) : Good r (pExp F neg n frac r) := by
  obtain ⟨c, t, rfl, _⟩ := cur_pos hr
  unfold pExp
  rw [adv_one]
  have key : ∀ eneg (r2 : Bytes), r2 <:+ t → Good (c :: t)
      (if isDigit (cur r2) then
        match accum 0 (r2.takeWhile isDigit) with
        | none => .ub
        | some e => .ok (.flo (F.read neg n frac (some (eneg, e)))) (r2.dropWhile isDigit)
       else .err) := by
    intro eneg r2 h2
    split
    · cases h : accum 0 (r2.takeWhile isDigit) with
      | none => exact LongDigits.mono (h2.trans (List.suffix_cons c t)) (long_takeWhile h)
      | some e => exact .ok_suffix ((dropWhile_suffix' _ _).trans h2)
    · trivial
  cases t with
  | nil => exact key false _ List.suffix_rfl
  | cons d u =>
    dsimp only
    by_cases hd : (cur (d :: u) == 45 || cur (d :: u) == 43) = true
    · rw [if_pos hd, adv_one]
      exact key _ _ (List.suffix_cons d u)
    · rw [if_neg hd, adv_zero]
      exact key _ _ List.suffix_rfl

theorem pTail_good {neg n frac} {r r0 : Bytes} (hs : r <:+ r0) (hl : r.length < r0.length) : Good r0 (pTail F neg n frac r) := by
  unfold pTail
  split
  · rename_i h
    refine Good.later hs (pExp_good ?_)
    intro h0
    rw [h0] at h
    simp at h
  · cases frac with
    | none => exact ⟨hs, hl⟩
    | some f => exact ⟨hs, hl⟩

theorem pDigits_good {neg} {r : Bytes} (hr : isDigit (cur r) = true) : Good r (pDigits F neg r) := by
  have h0 : cur r ≠ 0 := by
    intro h
    rw [h] at hr
    exact absurd hr (by decide)
  obtain ⟨c, t, rfl, _⟩ := cur_pos h0
  unfold pDigits
  cases h : accum 0 ((c :: t).takeWhile isDigit) with
  | none => exact long_takeWhile h
  | some n =>
    have hd : (c :: t).dropWhile isDigit <:+ t := by
      rw [List.dropWhile_cons]
      rw [cur_cons] at hr
      rw [if_pos hr]
      exact dropWhile_suffix' _ _
    have hs := hd.trans (List.suffix_cons c t)
    have hl : ((c :: t).dropWhile isDigit).length < (c :: t).length := by
      have := hd.length_le
      simp only [List.length_cons]
      omega
    dsimp only
    split
    · rename_i h46
      obtain ⟨u, hu⟩ := cur_beq h46 (by decide)
      rw [hu] at hs hl ⊢
      rw [adv_one]
      have h2 : u.dropWhile isDigit <:+ 46 :: u := (dropWhile_suffix' _ _).trans (List.suffix_cons _ _)
      refine pTail_good (h2.trans hs) (Nat.lt_of_le_of_lt h2.length_le hl)
    · exact pTail_good hs hl

theorem pNumber_good {r : Bytes} : Good r (pNumber F r) := by
  unfold pNumber
  split
  · rename_i h
    obtain ⟨t, rfl⟩ := cur_beq h (by decide)
    rw [look_one]
    split
    · rename_i hd
      rw [adv_one]
      exact (pDigits_good hd).cons
    · exact List.suffix_rfl
  · split
    · rename_i h
      obtain ⟨t, rfl⟩ := cur_beq h (by decide)
      rw [look_one]
      split
      · rename_i hd
        rw [adv_one]
        exact (pDigits_good hd).cons
      · exact List.suffix_rfl
    · split
      · exact pDigits_good ‹_›
      · exact List.suffix_rfl

theorem pChar_good {r : Bytes} : Good r (pChar r) := by
  unfold pChar
  split
  · rename_i h
    obtain ⟨t, rfl⟩ := cur_beq h (by decide)
    rw [look_one]
    split
    · rename_i h2
      obtain ⟨u, rfl⟩ := cur_beq h2 (by decide)
      rw [adv_two]
      split
      · trivial
      · rename_i h0
        obtain ⟨c, v, rfl, _⟩ := cur_pos (by simpa using h0)
        simp only [adv_one, cur_cons]
        have hs : v <:+ 92 :: c :: v := (List.suffix_cons c v).trans (List.suffix_cons _ _)
        split
        · exact .ok_suffix hs
        · split
          · split
            · exact .ok_suffix ((dropWhile_suffix' _ _).trans (List.suffix_cons _ _))
            · exact .ok_suffix hs
          · exact .ok_suffix hs
    · exact List.suffix_rfl
  · exact List.suffix_rfl

theorem scanStr_suffix : ∀ (b : Bool) (r raw r' : Bytes), scanStr b r = some (raw, r') → r' <:+ r
  | _, [], _, _, h => by simp [scanStr] at h
  | b, c :: t, raw, r', h => by
    have ih1 := scanStr_suffix false t
    have ih2 := scanStr_suffix true t
    unfold scanStr at h
    repeat' split at h
    all_goals simp only [Option.map_eq_some_iff, Prod.mk.injEq, Option.some.injEq, reduceCtorEq] at h
    · obtain ⟨⟨a, b⟩, h1, _, rfl⟩ := h
      exact (ih1 _ _ h1).trans (List.suffix_cons _ _)
    · obtain ⟨⟨a, b⟩, h1, _, rfl⟩ := h
      exact (ih2 _ _ h1).trans (List.suffix_cons _ _)
    · obtain ⟨_, rfl⟩ := h
      exact List.suffix_cons _ _
    · obtain ⟨⟨a, b⟩, h1, _, rfl⟩ := h
      exact (ih1 _ _ h1).trans (List.suffix_cons _ _)

theorem pString_good {r : Bytes} (hr : cur r ≠ 0) : Good r (pString r) := by
  obtain ⟨c, t, rfl, _⟩ := cur_pos hr
  unfold pString
  rw [adv_one]
  cases h : scanStr false t with
  | none => trivial
  | some x => exact .ok_suffix (scanStr_suffix _ _ _ _ h)

theorem scanSym_suffix : ∀ (r : Bytes), (scanSym r).2 <:+ r ∧ ((scanSym r).1 ≠ [] → (scanSym r).2.length < r.length)
  | [] => by simp [scanSym]
  | [c] => by
    unfold scanSym
    split <;> simp
  | c :: d :: u => by
    have ih1 := scanSym_suffix u
    have ih2 := scanSym_suffix (d :: u)
    have s2 := List.suffix_cons c (d :: u)
    have s1 := (List.suffix_cons d u).trans s2
    have l1 := ih1.1.length_le
    have l2 := ih2.1.length_le
    unfold scanSym
    repeat' split
    all_goals refine ⟨?_, fun _ => ?_⟩
    all_goals first
      | exact ih1.1.trans s1
      | exact ih2.1.trans s2
      | exact List.suffix_rfl
      | (simp only [List.length_cons] at *; omega)
      | (rename_i h; exact absurd rfl h)

theorem litEnd_good {a b : UInt8} {r : Bytes} {y n : R} (ha : a ≠ 0) (hb : b ≠ 0) (hy : ∀ t, r = a :: b :: t → Good r y) (hn : Good r n) :
    Good r (litEnd a b r y n) := by
  unfold litEnd
  split
  · rename_i h
    obtain ⟨t, rfl⟩ := cur_beq h ha
    rw [look_one]
    split
    · rename_i h2
      obtain ⟨u, rfl⟩ := cur_beq h2 hb
      rw [look_two]
      split
      · exact hy _ rfl
      · exact hn
    · exact hn
  · exact hn

theorem pSymbol_good {r : Bytes} : Good r (pSymbol r) := by
  unfold pSymbol
  refine litEnd_good (by decide) (by decide) ?_ (litEnd_good (by decide) (by decide) ?_ ?_)
  · rintro t rfl
    rw [adv_two]
    exact .ok_suffix (List.suffix_cons _ _)
  · rintro t rfl
    rw [adv_two]
    exact .ok_suffix (List.suffix_cons _ _)
  · split
    · exact List.suffix_rfl
    · rename_i h
      obtain ⟨h1, h2⟩ := scanSym_suffix r
      exact ⟨h1, h2 (by simpa using h)⟩

theorem scanBrace_suffix : ∀ (r : Bytes) (n : Nat) (raw r' : Bytes), scanBrace n r = some (raw, r') → r' <:+ r
  | [], _, _, _, h => by simp [scanBrace] at h
  | c :: t, n, raw, r', h => by
    have ih := scanBrace_suffix t
    unfold scanBrace at h
    split at h
    · simp at h
    split at h
    · simp only [Option.map_eq_some_iff, Prod.mk.injEq] at h
      obtain ⟨⟨a, b⟩, h1, _, rfl⟩ := h
      exact (ih _ _ _ h1).trans (List.suffix_cons _ _)
    split at h
    · cases n with
      | zero =>
        simp only [Option.some.injEq, Prod.mk.injEq] at h
        obtain ⟨_, rfl⟩ := h
        exact List.suffix_cons _ _
      | succ k =>
        simp only [Option.map_eq_some_iff, Prod.mk.injEq] at h
        obtain ⟨⟨a, b⟩, h1, _, rfl⟩ := h
        exact (ih _ _ _ h1).trans (List.suffix_cons _ _)
    · simp only [Option.map_eq_some_iff, Prod.mk.injEq] at h
      obtain ⟨⟨a, b⟩, h1, _, rfl⟩ := h
      exact (ih _ _ _ h1).trans (List.suffix_cons _ _)

theorem pBrace_good {c d : UInt8} {t : Bytes} : Good (c :: d :: t) (pBrace (c :: d :: t)) := by
  unfold pBrace
  rw [adv_two]
  cases h : scanBrace 0 t with
  | none => trivial
  | some x =>
    obtain ⟨name, r2⟩ := x
    have hs := scanBrace_suffix _ _ _ _ h
    dsimp only
    split
    · rename_i h2
      obtain ⟨u, rfl⟩ := cur_beq h2 (by decide)
      rw [adv_one]
      exact .ok_suffix (((List.suffix_cons _ _).trans hs).trans (List.suffix_cons _ _))
    · trivial

theorem Good.orElse {r : Bytes} {x y : R} (hx : Good r x) (hy : Good r y) : Good r (Rd.orElse x y) := by
  unfold Rd.orElse
  split
  · exact hy
  · exact hx

theorem pAtom_good {r : Bytes} : Good r (pAtom F r) := by
  have hrest : Good r (Rd.orElse (pNumber F r) (Rd.orElse (pSymbol r) .err)) :=
    Good.orElse pNumber_good (Good.orElse pSymbol_good (y := .err) trivial)
  unfold pAtom
  exact litEnd_good (by decide) (by decide) (fun _ _ => Good.orElse pSymbol_good hrest)
    (litEnd_good (by decide) (by decide) (fun _ _ => Good.orElse pSymbol_good hrest) hrest)

/-! ## Compound data -/

theorem Good.need {r : Bytes} {x : R} {f : D → Bytes → R} (hx : Good r x) (hf : ∀ d r', r' <:+ r → r'.length < r.length → Good r (f d r')) :
    Good r (Rd.need x f) := by
  cases x with
  | ok d r' => exact hf d r' hx.1 hx.2
  | null r' => trivial
  | err => trivial
  | ub => exact hx
  | oob => exact hx
  | fuel => exact hx

theorem Good.need' {r r0 : Bytes} {x : R} {f : D → Bytes → R} (hs : r0 <:+ r) (hx : Good r0 x)
    (hf : ∀ d r', r' <:+ r0 → r'.length < r0.length → Good r (f d r')) : Good r (Rd.need x f) := by
  cases x with
  | ok d r' => exact hf d r' hx.1 hx.2
  | null r' => trivial
  | err => trivial
  | ub => exact hx.mono hs
  | oob => exact hx
  | fuel => exact hx

/-- How many nested calls a function may still make without consuming input. -/
def rank : Job → Nat
  | .expr => 2
  | .items => 3
  | .elems => 3
  | _ => 1

theorem close_good {r : Bytes} {d : D} : Good r (close d r) := by
  unfold close
  split
  · rename_i h
    obtain ⟨t, rfl⟩ := cur_beq h (by decide)
    rw [adv_one]
    exact .ok_cons
  · trivial

theorem rd_good (n : Nat) : ∀ (j : Job) (r : Bytes), 4 * r.length + rank j ≤ n → Good r (rd F n j r) := by
  induction n with
  | zero =>
    intro j r h
    have : 0 < rank j := by cases j <;> decide
    omega
  | succ n ih =>
    intro j r h
    -- recursive calls after consuming at least one byte
    have ih' : ∀ (j' : Job) {c : UInt8} {t r1 : Bytes}, r = c :: t → r1 <:+ t → Good r1 (rd F n j' r1) := by
      intro j' c t r1 hr hs
      refine ih j' r1 ?_
      have hl := hs.length_le
      have hk : rank j' ≤ 3 := by cases j' <;> decide
      have hj : 0 < rank j := by cases j <;> decide
      rw [hr] at h
      simp only [List.length_cons] at h
      omega
    -- recursive calls at the same place, of lower rank
    have ih0 : ∀ (j' : Job) {r1 : Bytes}, rank j' < rank j → r1 <:+ r → Good r1 (rd F n j' r1) := by
      intro j' r1 hk hs
      refine ih j' r1 ?_
      have hl := hs.length_le
      omega
    show Good r (step F (rd F n) j r)
    cases j with
    | expr =>
      show Good r (pExpr F (rd F n) r)
      unfold pExpr
      have hs : skipWs r <:+ r := skipWs_suffix r
      dsimp only
      generalize skipWs r = q at hs ⊢
      split
      · exact hs
      rename_i h0
      have h0 : cur (q) ≠ 0 := by simpa using h0
      split
      · exact (ih0 .quote (by decide) hs).later hs
      split
      · exact (ih0 .quasi (by decide) hs).later hs
      split
      · exact (ih0 .list (by decide) hs).later hs
      split
      · exact (pString_good h0).later hs
      refine Good.later hs ?_
      have hplain : Good (q) (Rd.orElse (pChar (q)) (Rd.orElse (rd F n .vec (q)) (pAtom F (q)))) :=
        Good.orElse pChar_good (Good.orElse (ih0 .vec (by decide) hs) pAtom_good)
      unfold pHash
      dsimp only
      split
      · rename_i h35
        obtain ⟨t, rfl⟩ := cur_beq h35 (by decide)
        rw [look_one]
        split
        · rename_i h58
          obtain ⟨u, rfl⟩ := cur_beq h58 (by decide)
          rw [adv_two]
          refine Good.need' ((List.suffix_cons _ _).trans (List.suffix_cons _ _)) pSymbol_good ?_
          intro d r' hs' _
          exact .ok_suffix (hs'.trans (List.suffix_cons _ _))
        · split
          · rename_i h123
            obtain ⟨u, rfl⟩ := cur_beq h123 (by decide)
            exact pBrace_good
          · exact hplain
      · exact hplain
    | quote =>
      show Good r (pQuote (rd F n) r)
      unfold pQuote
      split
      · rename_i h39
        obtain ⟨t, rfl⟩ := cur_beq h39 (by decide)
        rw [adv_one]
        have hs := List.suffix_cons 39 t
        have hother : Good (39 :: t) (Rd.need (Rd.orElse (rd F n .unq t) (rd F n .expr t)) fun d r2 => .ok (form "quote" d) r2) := by
          refine Good.need' hs (Good.orElse (ih' .unq rfl List.suffix_rfl) (ih' .expr rfl List.suffix_rfl)) ?_
          intro d r' hs' _
          exact .ok_suffix hs'
        dsimp only
        split
        · rename_i h35
          obtain ⟨u, rfl⟩ := cur_beq h35 (by decide)
          rw [look_one]
          split
          · refine Good.need' hs pChar_good ?_
            intro d r' hs' _
            exact .ok_suffix hs'
          · exact hother
        · exact hother
      · exact List.suffix_rfl
    | quasi =>
      show Good r (pQuasi (rd F n) r)
      unfold pQuasi
      split
      · rename_i h39
        obtain ⟨t, rfl⟩ := cur_beq h39 (by decide)
        rw [adv_one]
        refine Good.need' (List.suffix_cons _ t) (Good.orElse (ih' .unq rfl List.suffix_rfl) (ih' .expr rfl List.suffix_rfl)) ?_
        intro d r' hs' _
        exact .ok_suffix hs'
      · exact List.suffix_rfl
    | unq =>
      show Good r (pUnq (rd F n) r)
      unfold pUnq
      split
      · rename_i h44
        obtain ⟨t, rfl⟩ := cur_beq h44 (by decide)
        rw [look_one]
        split
        · rename_i h64
          obtain ⟨u, rfl⟩ := cur_beq h64 (by decide)
          rw [adv_two]
          refine Good.need' ((List.suffix_cons _ _).trans (List.suffix_cons _ _)) (ih' .expr rfl (List.suffix_cons _ _)) ?_
          intro d r' hs' _
          exact .ok_suffix (hs'.trans (List.suffix_cons _ _))
        · rw [adv_one]
          have hs := skipWs_suffix t
          have fin : ∀ x : R, Good (skipWs t) x → Good (44 :: t) (Rd.need x fun d r2 => .ok (form "unquote" d) r2) := by
            intro x hx
            refine Good.need' (hs.trans (List.suffix_cons _ _)) hx ?_
            intro d r' hs' _
            exact .ok_suffix (hs'.trans hs)
          dsimp only
          split
          · exact fin _ (ih' .quote rfl hs)
          · split
            · exact fin _ (ih' .unq rfl hs)
            · exact fin _ (ih' .expr rfl hs)
      · exact List.suffix_rfl
    | list =>
      show Good r (pList (rd F n) r)
      unfold pList
      split
      · rename_i h40
        obtain ⟨t, rfl⟩ := cur_beq h40 (by decide)
        rw [adv_one]
        have hs := skipWs_suffix t
        dsimp only
        split
        · rename_i h41
          obtain ⟨u, hu⟩ := cur_beq h41 (by decide)
          rw [hu] at hs ⊢
          rw [adv_one]
          exact .ok_suffix ((List.suffix_cons _ _).trans hs)
        · exact (ih' .items rfl hs).later (hs.trans (List.suffix_cons _ _))
      · exact List.suffix_rfl
    | vec =>
      show Good r (pVec (rd F n) r)
      unfold pVec
      split
      · rename_i h35
        obtain ⟨t, rfl⟩ := cur_beq h35 (by decide)
        rw [look_one]
        split
        · rename_i h40
          obtain ⟨u, rfl⟩ := cur_beq h40 (by decide)
          rw [adv_two]
          have hs := skipWs_suffix u
          have hs1 := hs.trans (List.suffix_cons 40 u)
          dsimp only
          split
          · rename_i h41
            obtain ⟨v, hv⟩ := cur_beq h41 (by decide)
            rw [hv] at hs1 ⊢
            rw [adv_one]
            exact .ok_suffix ((List.suffix_cons _ _).trans hs1)
          · refine Good.need' (hs1.trans (List.suffix_cons _ _)) (ih' .elems rfl hs1) ?_
            intro d r' hs' _
            exact .ok_suffix (hs'.trans hs1)
        · exact List.suffix_rfl
      · exact List.suffix_rfl
    | items =>
      show Good r (pItems (rd F n) r)
      unfold pItems
      split
      · exact close_good
      · rename_i h0
        have h0 : cur r ≠ 0 ∧ cur r ≠ 41 := by simpa using h0
        obtain ⟨c, t, rfl, _⟩ := cur_pos h0.1
        refine Good.need (Good.orElse (ih0 .quote (by decide) List.suffix_rfl) (Good.orElse (ih0 .unq (by decide) List.suffix_rfl)
          (ih0 .expr (by decide) List.suffix_rfl))) ?_
        intro elem r1 hs1 hl1
        have hs1 : r1 <:+ t := by
          rcases List.suffix_cons_iff.1 hs1 with h | h
          · rw [h] at hl1
            omega
          · exact h
        have hs := (skipWs_suffix r1).trans hs1
        generalize skipWs r1 = r2 at hs
        have hc := List.suffix_cons c t
        have hnext : Good (c :: t) (Rd.need (rd F n .items r2) fun d r' => .ok (.pair elem d) r') := by
          refine Good.need' (hs.trans hc) (ih' .items rfl hs) ?_
          intro d r' hs' _
          exact .ok_suffix (hs'.trans hs)
        unfold pDot
        dsimp only
        split
        · rename_i h46
          obtain ⟨u, rfl⟩ := cur_beq h46 (by decide)
          rw [look_one]
          split
          · exact hnext
          · rw [adv_one]
            have hu := (List.suffix_cons 46 u).trans hs
            have hs3 := (skipWs_suffix u).trans hu
            refine Good.need' (hs3.trans hc) (Good.orElse (ih' .unq rfl hs3) (ih' .expr rfl hs3)) ?_
            intro d r' hs' _
            exact Good.later (((skipWs_suffix r').trans (hs'.trans hs3)).trans hc) close_good
        · exact hnext
    | elems =>
      show Good r (pElems (rd F n) r)
      unfold pElems
      split
      · exact close_good
      · rename_i h0
        have h0 : cur r ≠ 0 ∧ cur r ≠ 41 := by simpa using h0
        obtain ⟨c, t, rfl, _⟩ := cur_pos h0.1
        refine Good.need (Good.orElse (ih0 .unq (by decide) List.suffix_rfl) (ih0 .expr (by decide) List.suffix_rfl)) ?_
        intro elem r1 hs1 hl1
        have hs1 : r1 <:+ t := by
          rcases List.suffix_cons_iff.1 hs1 with h | h
          · rw [h] at hl1
            omega
          · exact h
        have hs := (skipWs_suffix r1).trans hs1
        refine Good.need' (hs.trans (List.suffix_cons c t)) (ih' .elems rfl hs) ?_
        intro d r' hs' _
        exact .ok_suffix (hs'.trans hs)

/-! ## Independence of the fuel -/

/-- `b` is at least as defined as `a`. -/
def Le (a b : R) : Prop := a = .fuel ∨ a = b

theorem Le.rfl' {a : R} : Le a a := .inr rfl

theorem Le.orElse {a b c d : R} (h1 : Le a b) (h2 : Le c d) : Le (Rd.orElse a c) (Rd.orElse b d) := by
  rcases h1 with rfl | rfl
  · exact .inl rfl
  · cases a with
    | null r => exact h2
    | _ => exact .rfl'

theorem Le.need {a b : R} {f g : D → Bytes → R} (h1 : Le a b) (h2 : ∀ d r, Le (f d r) (g d r)) : Le (Rd.need a f) (Rd.need b g) := by
  rcases h1 with rfl | rfl
  · exact .inl rfl
  · cases a with
    | ok d r => exact h2 d r
    | _ => exact .rfl'

theorem Le.look {r : Bytes} {k : Nat} {f g : UInt8 → R} (h : ∀ c, Le (f c) (g c)) : Le (Rd.look r k f) (Rd.look r k g) := by
  unfold Rd.look
  split
  · exact h _
  · exact .rfl'

theorem Le.adv {r : Bytes} {k : Nat} {f g : Bytes → R} (h : ∀ c, Le (f c) (g c)) : Le (Rd.adv r k f) (Rd.adv r k g) := by
  unfold Rd.adv
  split
  · exact h _
  · exact .rfl'

theorem Le.ite {c : Prop} [Decidable c] {a b a' b' : R} (h1 : Le a a') (h2 : Le b b') : Le (if c then a else b) (if c then a' else b') := by
  split <;> assumption

theorem step_mono {rc1 rc2 : Job → Bytes → R} (h : ∀ j r, Le (rc1 j r) (rc2 j r)) (j : Job) (r : Bytes) :
    Le (step F rc1 j r) (step F rc2 j r) := by
  have hok : ∀ (x : D → D) (d : D) (r : Bytes), Le (.ok (x d) r) (.ok (x d) r) := fun _ _ _ => .rfl'
  cases j with
  | expr =>
    unfold step pExpr pHash
    dsimp only
    refine .ite .rfl' (.ite (h _ _) (.ite (h _ _) (.ite (h _ _) (.ite .rfl' ?_))))
    have hp := Le.orElse (.rfl' (a := pChar (skipWs r))) (Le.orElse (h .vec (skipWs r)) (.rfl' (a := pAtom F (skipWs r))))
    exact .ite (.look fun _ => .ite .rfl' (.ite .rfl' hp)) hp
  | quote =>
    show Le (pQuote rc1 r) (pQuote rc2 r)
    unfold pQuote
    dsimp only
    refine .ite (.adv fun r1 => ?_) .rfl'
    have ho : Le _ _ := Le.need (f := fun d r2 => .ok (form "quote" d) r2) (g := fun d r2 => .ok (form "quote" d) r2)
      (.orElse (h .unq r1) (h .expr r1)) (fun _ _ => .rfl')
    exact .ite (.look fun _ => .ite .rfl' ho) ho
  | quasi =>
    show Le (pQuasi rc1 r) (pQuasi rc2 r)
    unfold pQuasi
    exact .ite (.adv fun r1 => .need (.orElse (h _ _) (h _ _)) (fun _ _ => .rfl')) .rfl'
  | unq =>
    show Le (pUnq rc1 r) (pUnq rc2 r)
    unfold pUnq
    dsimp only
    exact .ite (.look fun _ => .ite (.adv fun r1 => .need (h _ _) (fun _ _ => .rfl'))
      (.adv fun r0 => .ite (.need (h _ _) (fun _ _ => .rfl')) (.ite (.need (h _ _) (fun _ _ => .rfl')) (.need (h _ _) (fun _ _ => .rfl'))))) .rfl'
  | list =>
    show Le (pList rc1 r) (pList rc2 r)
    unfold pList
    dsimp only
    exact .ite (.adv fun _ => .ite .rfl' (h _ _)) .rfl'
  | vec =>
    show Le (pVec rc1 r) (pVec rc2 r)
    unfold pVec
    dsimp only
    exact .ite (.look fun _ => .ite (.adv fun _ => .ite .rfl' (.need (h _ _) (fun _ _ => .rfl'))) .rfl') .rfl'
  | items =>
    show Le (pItems rc1 r) (pItems rc2 r)
    unfold pItems pDot
    dsimp only
    refine .ite .rfl' (.need (.orElse (h _ _) (.orElse (h _ _) (h _ _))) fun e r1 => ?_)
    have hn : ∀ r2, Le (Rd.need (rc1 .items r2) fun d r' => .ok (.pair e d) r') (Rd.need (rc2 .items r2) fun d r' => .ok (.pair e d) r') :=
      fun _ => .need (h _ _) (fun _ _ => .rfl')
    exact .ite (.look fun _ => .ite (hn _) (.adv fun _ => .need (.orElse (h _ _) (h _ _)) (fun _ _ => .rfl'))) (hn _)
  | elems =>
    show Le (pElems rc1 r) (pElems rc2 r)
    unfold pElems
    exact .ite .rfl' (.need (.orElse (h _ _) (h _ _)) fun _ _ => .need (h _ _) fun _ _ => .rfl')

theorem rd_succ (n : Nat) : ∀ j r, Le (rd F n j r) (rd F (n + 1) j r) := by
  induction n with
  | zero => intro j r; exact .inl rfl
  | succ n ih => intro j r; exact step_mono ih j r

theorem rd_mono {n m : Nat} (hm : n ≤ m) (j : Job) (r : Bytes) : Le (rd F n j r) (rd F m j r) := by
  induction hm with
  | refl => exact .rfl'
  | step _ ih =>
    rcases ih with h | h
    · exact .inl h
    · rw [h]
      exact rd_succ _ j r

theorem rd_eq {n m : Nat} {j : Job} {r : Bytes} (h1 : rd F n j r ≠ .fuel) (h2 : rd F m j r ≠ .fuel) : rd F n j r = rd F m j r := by
  rcases Nat.le_total n m with h | h
  · exact (rd_mono h j r).resolve_left h1
  · exact ((rd_mono h j r).resolve_left h2).symm

/-! ## The result of a reader function -/

/-- The result of a reader function, whatever the fuel. -/
def Reads (F : FloIO) (j : Job) (r : Bytes) (x : R) : Prop := x ≠ .fuel ∧ ∃ n, rd F n j r = x

theorem Reads.parseExpr {r : Bytes} {x : R} : Reads F .expr r x ↔ parseExpr F r = x := by
  have hg : Good r (Rd.parseExpr F r) := rd_good _ _ _ (by simp [rank, depth])
  have hne : Rd.parseExpr F r ≠ .fuel := fun h => by rw [h] at hg; exact hg
  constructor
  · rintro ⟨hx, n, hn⟩
    rw [← hn]
    exact rd_eq hne (by rw [hn]; exact hx)
  · intro h
    exact ⟨h ▸ hne, _, h⟩

theorem Reads.det {j : Job} {r : Bytes} {x y : R} (h1 : Reads F j r x) (h2 : Reads F j r y) : x = y := by
  obtain ⟨hx, n, hn⟩ := h1
  obtain ⟨hy, m, hm⟩ := h2
  rw [← hn, ← hm]
  exact rd_eq (by rw [hn]; exact hx) (by rw [hm]; exact hy)

theorem Reads.total (j : Job) (r : Bytes) : ∃ x, Reads F j r x := by
  have hg : Good r (rd F (4 * r.length + rank j) j r) := rd_good _ _ _ (Nat.le_refl _)
  exact ⟨_, fun h => by rw [h] at hg; exact hg, 4 * r.length + rank j, rfl⟩

theorem Reads.good {j : Job} {r : Bytes} {x : R} (h : Reads F j r x) : Good r x := by
  have hg : Good r (rd F (4 * r.length + rank j) j r) := rd_good _ _ _ (Nat.le_refl _)
  have : Reads F j r (rd F (4 * r.length + rank j) j r) := ⟨fun h => by rw [h] at hg; exact hg, _, rfl⟩
  rw [h.det this]
  exact hg

/-- The result function. -/
def lim (F : FloIO) (j : Job) (r : Bytes) : R := rd F (4 * r.length + rank j) j r

theorem lim_ne_fuel (j : Job) (r : Bytes) : lim F j r ≠ .fuel := by
  have hg : Good r (lim F j r) := rd_good _ _ _ (Nat.le_refl _)
  intro h
  rw [h] at hg
  exact hg

theorem rd_lim {n : Nat} {j : Job} {r : Bytes} : Le (rd F n j r) (lim F j r) := by
  by_cases h : rd F n j r = .fuel
  · exact .inl h
  · exact .inr (rd_eq h (lim_ne_fuel j r))

/-- The recursive equations of the reader, without fuel. -/
theorem lim_eq (j : Job) (r : Bytes) : lim F j r = step F (lim F) j r := by
  have h : lim F j r = rd F (4 * r.length + rank j + 1) j r := (rd_succ _ j r).resolve_left (lim_ne_fuel j r)
  rw [h]
  have h2 : rd F (4 * r.length + rank j + 1) j r ≠ .fuel := h ▸ lim_ne_fuel j r
  exact (step_mono (fun j r => rd_lim) j r).resolve_left h2

theorem parseExpr_lim (r : Bytes) : parseExpr F r = lim F .expr r := by
  have hg : Good r (parseExpr F r) := rd_good _ _ _ (by simp [rank, depth])
  exact rd_lim.resolve_left fun h => by
    unfold parseExpr at hg
    rw [h] at hg
    exact hg

end Pscm.Rd
