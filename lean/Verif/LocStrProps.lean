import Verif.LocStr

/-!
# C131: text passed from C to Scheme and back
-/

namespace Pscm.Lst

theorem toInt_small {n : Nat} (h : n < 2 ^ 31) : toInt n = n := by
  unfold toInt
  have : n % 2 ^ 32 = n := Nat.mod_eq_of_lt (by omega)
  simp only [this]
  rw [if_pos h]

theorem copy_small {p : List Nat} {n : Nat} (h : n < 2 ^ 31 - 1) (hp : n ≤ p.length) : copy p (n : Int) = .ok (p.take n) := by
  unfold copy
  rw [if_neg (by omega), if_neg (by omega), if_neg (by omega), if_neg (by simpa using hp)]
  simp

theorem strlen_append (bs rest : List Nat) (h : 0 ∉ bs) : strlen (bs ++ 0 :: rest) = some bs.length := by
  induction bs with
  | nil => simp [strlen]
  | cons b bs ih =>
    simp only [List.mem_cons, not_or] at h
    simp only [List.cons_append, strlen]
    rw [if_neg (Ne.symm h.1), ih h.2]
    rfl

theorem strlen_le (bs : List Nat) (n : Nat) (h : strlen bs = some n) : 0 ∉ bs.take n ∧ bs[n]? = some 0 := by
  induction bs generalizing n with
  | nil => simp [strlen] at h
  | cons b bs ih =>
    simp only [strlen] at h
    split at h
    · rename_i hb; cases h; simp [hb]
    · rename_i hb
      cases hs : strlen bs with
      | none => simp [hs] at h
      | some m =>
        rw [hs] at h
        cases h
        obtain ⟨h1, h2⟩ := ih m hs
        simp [h1, h2, Ne.symm hb]

/-- C131: a text of less than 2^31 - 1 bytes passed with its length becomes a Scheme string with exactly these bytes (NUL bytes included), and asking for that string with a length gives back exactly
these bytes and their number; the same for symbols by way of their names. -/
theorem c131_roundtrip (bs rest : List Nat) (h : bs.length < 2 ^ 31 - 1) :
    fromLocaleStringn (some (bs ++ rest)) bs.length = .ok (.str bs) ∧ toLocaleStringn (some (.str bs)) true = .ok (bs, some bs.length) ∧
    fromLocaleSymboln (some (bs ++ rest)) bs.length = .ok (.sym bs) ∧ symbolToString (.sym bs) = .ok (.str bs) := by
  have hne : bs.length ≠ sizeMax := by unfold sizeMax; omega
  refine ⟨?_, rfl, ?_, rfl⟩
  · simp only [fromLocaleStringn, if_neg hne, fromCString, toInt_small (show bs.length < 2 ^ 31 by omega)]
    rw [copy_small h (by simp)]
    simp
  · simp only [fromLocaleSymboln, if_neg hne, createSym, toInt_small (show bs.length < 2 ^ 31 by omega)]
    rw [copy_small h (by simp)]
    simp

example : fromLocaleStringn (some [104, 0, 105, 7, 7]) 3 = .ok (.str [104, 0, 105]) := (c131_roundtrip [104, 0, 105] [7, 7] (by decide)).1

/-- C131: passed without a length, the text ends before its first NUL byte. -/
theorem c131_terminated (bs rest : List Nat) (h : bs.length < 2 ^ 31 - 1) (h0 : 0 ∉ bs) :
    fromLocaleStringn (some (bs ++ 0 :: rest)) sizeMax = .ok (.str bs) ∧ fromLocaleSymboln (some (bs ++ 0 :: rest)) sizeMax = .ok (.sym bs) ∧
    fromLocaleSymbol (some (bs ++ 0 :: rest)) = .ok (.sym bs) := by
  refine ⟨?_, ?_, ?_⟩
  · simp only [fromLocaleStringn, if_true, strlen_append bs rest h0, fromCString, toInt_small (show bs.length < 2 ^ 31 by omega)]
    rw [copy_small h (by simp)]
    simp
  · simp only [fromLocaleSymboln, if_true, strlen_append bs rest h0, createSym, toInt_small (show bs.length < 2 ^ 31 by omega)]
    rw [copy_small h (by simp)]
    simp
  · simp only [fromLocaleSymbol, strlen_append bs rest h0, createSym, toInt_small (show bs.length < 2 ^ 31 by omega)]
    rw [copy_small h (by simp)]
    simp

example : fromLocaleStringn (some [104, 105, 0, 7]) sizeMax = .ok (.str [104, 105]) := (c131_terminated [104, 105] [7] (by decide) (by decide)).1

/-- C131: asked for without a length, a string comes back as its bytes and one terminating NUL if it contains no NUL, and is refused otherwise: the host never gets a text that reads as a shorter
one.  Only strings are accepted. -/
theorem c131_out (v : Option Val) :
    (∀ bs, v = some (.str bs) → (0 ∉ bs → toLocaleStringn v false = .ok (bs ++ [0], none)) ∧ (0 ∈ bs → toLocaleStringn v false = .error)) ∧
    ((∀ bs, v ≠ some (.str bs)) → ∀ l, toLocaleStringn v l = .error) := by
  refine ⟨?_, ?_⟩
  · rintro bs rfl
    refine ⟨?_, ?_⟩
    · intro h0
      simp only [toLocaleStringn]
      rw [if_neg (by decide), if_pos (strlen_append bs [] h0)]
    · intro h0
      simp only [toLocaleStringn]
      rw [if_neg (by decide), if_neg]
      intro hs
      have := (strlen_le _ _ hs).1
      rw [List.take_left] at this
      exact this h0
  · intro h l
    match v with
    | none => rfl
    | some (.str bs) => exact absurd rfl (h bs)
    | some (.sym bs) => rfl
    | some .other => rfl

example : toLocaleStringn (some (.str [104, 105])) false = .ok ([104, 105, 0], none) ∧ toLocaleStringn (some (.str [104, 0, 105])) false = .error := by decide

/-- C131 is FALSE for long texts: a length of 2^32 or more is taken modulo 2^32: without any error the string has only the first `k` bytes. -/
theorem c131_truncated_fails (bs : List Nat) (k m : Nat) (hk : k < 2 ^ 31 - 1) (hm : 0 < m) (hl : bs.length = k + m * 2 ^ 32) (hs : bs.length < sizeMax) :
    fromLocaleStringn (some bs) bs.length = .ok (.str (bs.take k)) ∧ (bs.take k).length ≠ bs.length := by
  have ht : toInt bs.length = k := by
    unfold toInt
    have : bs.length % 2 ^ 32 = k := by rw [hl]; omega
    simp only [this]
    rw [if_pos (by omega)]
  refine ⟨?_, by rw [List.length_take]; omega⟩
  simp only [fromLocaleStringn, if_neg (Nat.ne_of_lt hs), fromCString, ht]
  rw [copy_small hk (by omega)]

example : ∃ bs : List Nat, bs.length = 5 + 1 * 2 ^ 32 ∧ bs.length < sizeMax := ⟨List.replicate (5 + 1 * 2 ^ 32) 7, by rw [List.length_replicate], by rw [List.length_replicate]; decide⟩

/-- C131 is FALSE for texts of 2^31 - 1 bytes to 2^32 - 1 bytes: the process is aborted, or the behaviour is undefined. -/
theorem c131_long_fails (bs : List Nat) (h1 : 2 ^ 31 - 1 ≤ bs.length) (h2 : bs.length < 2 ^ 32) :
    fromLocaleStringn (some bs) bs.length = .abort ∨ fromLocaleStringn (some bs) bs.length = .ub := by
  have hne : bs.length ≠ sizeMax := by unfold sizeMax; omega
  simp only [fromLocaleStringn, if_neg hne, fromCString]
  have hm : bs.length % 2 ^ 32 = bs.length := Nat.mod_eq_of_lt h2
  by_cases h3 : bs.length < 2 ^ 31
  · right
    have : toInt bs.length = 2 ^ 31 - 1 := by rw [toInt_small h3]; omega
    rw [this]
    simp [copy]
  · have : toInt bs.length = (bs.length : Int) - 2 ^ 32 := by unfold toInt; simp only [hm]; rw [if_neg h3]
    rw [this]
    unfold copy
    by_cases h4 : (bs.length : Int) - 2 ^ 32 < -1
    · left; rw [if_pos h4]
    · right; rw [if_neg h4, if_pos (by omega)]

example : ∃ bs : List Nat, 2 ^ 31 - 1 ≤ bs.length ∧ bs.length < 2 ^ 32 := ⟨List.replicate (2 ^ 31) 7, by rw [List.length_replicate]; decide, by rw [List.length_replicate]; decide⟩

end Pscm.Lst
