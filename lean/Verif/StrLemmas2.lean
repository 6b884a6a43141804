import Verif.StrLemmas
/-! # Helper lemmas for string comparison, `gensym` -/
namespace Pscm
open Spec

/-! ## Lexicographic order -/

theorem lexLt_irrefl : ∀ s, ¬ lexLt s s
  | [] => by simp [lexLt]
  | a :: s => by have := lexLt_irrefl s; simp [lexLt, this]

theorem lexLt_trans : ∀ s t u, lexLt s t → lexLt t u → lexLt s u
  | [], [], _, h, _ => by simp [lexLt] at h
  | [], _ :: _, [], _, h => by simp [lexLt] at h
  | [], _ :: _, _ :: _, _, _ => by simp [lexLt]
  | _ :: _, [], _, h, _ => by simp [lexLt] at h
  | _ :: _, _ :: _, [], _, h => by simp [lexLt] at h
  | a :: s, b :: t, c :: u, h1, h2 => by
    simp only [lexLt] at *
    rcases h1 with h1 | ⟨rfl, h1⟩
    · rcases h2 with h2 | ⟨rfl, h2⟩
      · left; omega
      · left; omega
    · rcases h2 with h2 | ⟨rfl, h2⟩
      · left; omega
      · right; exact ⟨rfl, lexLt_trans s t u h1 h2⟩

theorem lexLt_tri : ∀ s t, lexLt s t ∨ s = t ∨ lexLt t s
  | [], [] => by simp
  | [], _ :: _ => by simp [lexLt]
  | _ :: _, [] => by simp [lexLt]
  | a :: s, b :: t => by
    simp only [lexLt]
    rcases Nat.lt_trichotomy a.toNat b.toNat with h | h | h
    · left; left; exact h
    · have e : a = b := UInt8.toNat_inj.1 h
      subst e
      rcases lexLt_tri s t with h | h | h
      · left; right; exact ⟨rfl, h⟩
      · right; left; rw [h]
      · right; right; right; exact ⟨rfl, h⟩
    · right; right; left; exact h

theorem lexLt_asymm {s t} (h1 : lexLt s t) (h2 : lexLt t s) : False := lexLt_irrefl s (lexLt_trans _ _ _ h1 h2)

/-! ## The comparison computed by the code -/

/-- Outcome of the comparison (helper): `strncmp` over the shorter length, then the lengths. -/
def cmpFull (s t : List UInt8) : Ordering :=
  match strncmp (if s.length < t.length then s.length else t.length) s t with
  | .lt => .lt
  | .gt => .gt
  | .eq => if s.length < t.length then .lt else if t.length < s.length then .gt else .eq

/-- The order computed: the bytes before the first NUL, then the length (helper). -/
def keyLt (s t : List UInt8) : Prop := lexLt (cstr s) (cstr t) ∨ (cstr s = cstr t ∧ s.length < t.length)

theorem u8_tri {a b : UInt8} (h1 : ¬ a < b) (h2 : ¬ b < a) : a = b := by
  apply UInt8.toNat_inj.1
  rw [UInt8.lt_iff_toNat_lt] at h1 h2
  omega

theorem cstr_cons (a : UInt8) (s : List UInt8) : cstr (a :: s) = if a = 0 then [] else a :: cstr s := by
  by_cases h : a = 0
  · simp [cstr, h]
  · simp [cstr, h]

theorem cstr_nulFree {s : List UInt8} (h : NulFree s) : cstr s = s := by
  unfold cstr
  induction s with
  | nil => rfl
  | cons a s ih =>
    rw [List.takeWhile_cons, if_pos (by simpa using h a (by simp)), ih (fun c hc => h c (by simp [hc]))]

theorem cmpFull_cons (a b : UInt8) (s t : List UInt8) : cmpFull (a :: s) (b :: t) =
    if a < b then .lt else if b < a then .gt else if a = 0 then
      (if s.length < t.length then .lt else if t.length < s.length then .gt else .eq) else cmpFull s t := by
  unfold cmpFull
  have e : (if (a :: s).length < (b :: t).length then (a :: s).length else (b :: t).length) =
      (if s.length < t.length then s.length else t.length) + 1 := by
    simp only [List.length_cons]; split <;> split <;> omega
  rw [e, strncmp]
  by_cases h1 : a < b
  · simp [h1]
  · by_cases h2 : b < a
    · simp [h1, h2]
    · by_cases h3 : a = 0
      · simp only [h1, h2, h3, if_true, if_false]
        subst h3; simp [h1]
      · simp [h1, h2, h3]

theorem cmpFull_lt : ∀ s t, cmpFull s t = .lt ↔ keyLt s t
  | [], [] => by simp [cmpFull, strncmp, keyLt, lexLt, cstr]
  | [], b :: t => by
    simp [cmpFull, strncmp, keyLt, cstr_cons]
    by_cases hb : b = 0 <;> simp [hb, cstr, lexLt]
  | a :: s, [] => by
    simp [cmpFull, strncmp, keyLt, cstr_cons]
    by_cases hb : a = 0 <;> simp [hb, cstr, lexLt]
  | a :: s, b :: t => by
    rw [cmpFull_cons]
    have ih := cmpFull_lt s t
    unfold keyLt at *
    rw [cstr_cons, cstr_cons]
    by_cases h1 : a < b
    · have hb : b ≠ 0 := by
        rintro rfl; have := UInt8.lt_iff_toNat_lt.1 h1; simp at this
      simp only [h1, hb, if_true, if_false, true_iff]
      left
      by_cases ha : a = 0
      · simp [ha, lexLt]
      · simp only [ha, if_false, lexLt]; left; exact UInt8.lt_iff_toNat_lt.1 h1
    · by_cases h2 : b < a
      · have ha : a ≠ 0 := by
          rintro rfl; have := UInt8.lt_iff_toNat_lt.1 h2; simp at this
        simp only [h1, h2, ha, if_true, if_false]
        simp only [reduceCtorEq, false_iff, not_or, not_and]
        have h2' := UInt8.lt_iff_toNat_lt.1 h2
        by_cases hb : b = 0
        · simp [hb, lexLt]
        · simp only [hb, if_false, lexLt]
          refine ⟨?_, ?_⟩
          · rintro (h | ⟨rfl, _⟩)
            · omega
            · omega
          · intro e; simp at e; rw [e.1] at h2'; omega
      · have e : a = b := u8_tri h1 h2
        subst e
        by_cases ha : a = 0
        · subst ha
          simp only [h1, if_true, if_false]
          by_cases l1 : s.length < t.length
          · simp [l1, lexLt]
          · by_cases l2 : t.length < s.length <;> simp [l1, l2, lexLt]
        · simp only [h1, ha, if_false, ih, lexLt]
          simp

theorem cmpFull_gt : ∀ s t, cmpFull s t = .gt ↔ cmpFull t s = .lt
  | [], [] => by simp [cmpFull, strncmp]
  | [], b :: t => by simp [cmpFull, strncmp]
  | a :: s, [] => by simp [cmpFull, strncmp]
  | a :: s, b :: t => by
    rw [cmpFull_cons, cmpFull_cons]
    have ih := cmpFull_gt s t
    by_cases h1 : a < b
    · have h2 : ¬ b < a := by
        intro h; have := UInt8.lt_iff_toNat_lt.1 h1; have := UInt8.lt_iff_toNat_lt.1 h; omega
      simp [h1, h2]
    · by_cases h2 : b < a
      · simp [h1, h2]
      · have e : a = b := u8_tri h1 h2
        subst e
        by_cases ha : a = 0
        · simp only [ha, if_true]
          by_cases l1 : s.length < t.length
          · simp [l1]; omega
          · by_cases l2 : t.length < s.length
            · simp [l1, l2]
            · simp [l1, l2]
        · simp [h1, ha, ih]

theorem keyLt_trans {s t u} (h1 : keyLt s t) (h2 : keyLt t u) : keyLt s u := by
  unfold keyLt at *
  rcases h1 with h1 | ⟨e1, l1⟩
  · rcases h2 with h2 | ⟨e2, _⟩
    · left; exact lexLt_trans _ _ _ h1 h2
    · left; rw [← e2]; exact h1
  · rcases h2 with h2 | ⟨e2, l2⟩
    · left; rw [e1]; exact h2
    · right; exact ⟨e1.trans e2, by omega⟩

theorem cmpFull_eq (s t : List UInt8) : cmpFull s t = .eq ↔ (cstr s = cstr t ∧ s.length = t.length) := by
  have h1 := cmpFull_lt s t
  have h2 := cmpFull_gt s t
  rw [cmpFull_lt] at h2
  constructor
  · intro h
    rw [h] at h1 h2
    simp only [reduceCtorEq, false_iff] at h1 h2
    unfold keyLt at h1 h2
    rcases lexLt_tri (cstr s) (cstr t) with h | h | h
    · exact absurd (Or.inl h) h1
    · refine ⟨h, ?_⟩
      rcases Nat.lt_trichotomy s.length t.length with l | l | l
      · exact absurd (Or.inr ⟨h, l⟩) h1
      · exact l
      · exact absurd (Or.inr ⟨h.symm, l⟩) h2
    · exact absurd (Or.inl h) h2
  · rintro ⟨e, l⟩
    cases h : cmpFull s t with
    | eq => rfl
    | lt =>
      have := h1.1 h
      unfold keyLt at this
      rcases this with h | ⟨_, h⟩
      · rw [e] at h; exact absurd h (lexLt_irrefl _)
      · omega
    | gt =>
      have := h2.1 h
      unfold keyLt at this
      rcases this with h | ⟨_, h⟩
      · rw [e] at h; exact absurd h (lexLt_irrefl _)
      · omega

theorem stringCmp_run {h : Heap} {x y : Obj} {a b s t} (hx : x.v = .str a) (hs : h.strs[a]? = some s)
    (hy : y.v = .str b) (ht : h.strs[b]? = some t) (l g : Bool) (e : Nat → Nat → Bool) :
    stringCmp l g e x y h = (.ok (match strncmp (if s.length < t.length then s.length else t.length) s t with
      | .lt => l | .gt => g | .eq => e s.length t.length), h) := by
  simp only [stringCmp]
  rw [M.bind_ok (strOf_ok hx hs)]
  simp only
  rw [M.bind_ok (strOf_ok hy ht)]
  simp only
  cases strncmp (if s.length < t.length then s.length else t.length) s t <;> rfl

theorem stringEq_run {h : Heap} {x y : Obj} {a b s t} (hx : x.v = .str a) (hs : h.strs[a]? = some s)
    (hy : y.v = .str b) (ht : h.strs[b]? = some t) : stringEq x y h = (.ok (cmpFull s t == .eq), h) := by
  simp only [stringEq]
  rw [M.bind_ok (strOf_ok hx hs)]
  simp only
  rw [M.bind_ok (strOf_ok hy ht)]
  simp only [cmpFull]
  by_cases hl : s.length = t.length
  · rw [if_neg (by simpa using hl)]
    have e : (if s.length < t.length then s.length else t.length) = s.length := by split <;> omega
    rw [e]
    cases strncmp s.length s t <;> simp [hl]
  · rw [if_pos hl]
    cases strncmp (if s.length < t.length then s.length else t.length) s t
    · simp
    · by_cases h1 : s.length < t.length
      · simp [h1]
      · by_cases h2 : t.length < s.length
        · simp [h1, h2]
        · omega
    · simp

theorem stringLt_run {h : Heap} {x y : Obj} {a b s t} (hx : x.v = .str a) (hs : h.strs[a]? = some s)
    (hy : y.v = .str b) (ht : h.strs[b]? = some t) : stringLt x y h = (.ok (cmpFull s t == .lt), h) := by
  rw [stringLt, stringCmp_run hx hs hy ht, cmpFull]
  cases strncmp (if s.length < t.length then s.length else t.length) s t
  · rfl
  · by_cases h1 : s.length < t.length
    · simp [h1]
    · by_cases h2 : t.length < s.length <;> simp [h1, h2]
  · rfl

theorem stringGt_run {h : Heap} {x y : Obj} {a b s t} (hx : x.v = .str a) (hs : h.strs[a]? = some s)
    (hy : y.v = .str b) (ht : h.strs[b]? = some t) : stringGt x y h = (.ok (cmpFull s t == .gt), h) := by
  rw [stringGt, stringCmp_run hx hs hy ht, cmpFull]
  cases strncmp (if s.length < t.length then s.length else t.length) s t
  · rfl
  · by_cases h1 : s.length < t.length
    · simp [h1]; omega
    · by_cases h2 : t.length < s.length <;> simp [h1, h2]
  · rfl

theorem stringLe_run {h : Heap} {x y : Obj} {a b s t} (hx : x.v = .str a) (hs : h.strs[a]? = some s)
    (hy : y.v = .str b) (ht : h.strs[b]? = some t) : stringLe x y h = (.ok (cmpFull s t != .gt), h) := by
  rw [stringLe, stringCmp_run hx hs hy ht, cmpFull]
  cases strncmp (if s.length < t.length then s.length else t.length) s t
  · rfl
  · by_cases h1 : s.length < t.length
    · simp [h1, Nat.le_of_lt h1]
    · by_cases h2 : t.length < s.length
      · simp [h1, h2]
      · simp [h1, h2, Nat.le_of_not_lt h2]
  · rfl

theorem stringGe_run {h : Heap} {x y : Obj} {a b s t} (hx : x.v = .str a) (hs : h.strs[a]? = some s)
    (hy : y.v = .str b) (ht : h.strs[b]? = some t) : stringGe x y h = (.ok (cmpFull s t != .lt), h) := by
  rw [stringGe, stringCmp_run hx hs hy ht, cmpFull]
  cases strncmp (if s.length < t.length then s.length else t.length) s t
  · rfl
  · by_cases h1 : s.length < t.length
    · simp [h1]
    · by_cases h2 : t.length < s.length
      · simp [h1, h2, Nat.le_of_lt h2]
      · simp [h1, h2, Nat.le_of_not_lt h1]
  · rfl

/-! ## Case folding -/

theorem forall_u8 {P : UInt8 → Prop} (h : ∀ n, n < 256 → P n.toUInt8) : ∀ c, P c := by
  intro c
  have := h c.toNat c.toNat_lt
  simpa using this

theorem up_eq : ∀ c, up c = toUpper c := forall_u8 (by decide +kernel)
theorem sChar_inj : ∀ a b : UInt8, sChar a = sChar b ↔ a = b := by
  intro a b
  have := a.toNat_lt; have := b.toNat_lt
  constructor
  · intro h
    apply UInt8.toNat_inj.1
    unfold sChar at h
    split at h <;> split at h <;> omega
  · rintro rfl; rfl
theorem up_ascii : ∀ c, c.toNat < 128 → (up c).toNat < 128 := forall_u8 (by decide +kernel)
theorem up_nul : ∀ c, up c = 0 → c = 0 := forall_u8 (by decide +kernel)
theorem sChar_ascii {c : UInt8} (h : c.toNat < 128) : sChar c = c.toNat := by simp [sChar, h]

theorem ciEqLoop_eq : ∀ s t : List UInt8, s.length = t.length → (ciEqLoop s t = true ↔ s.map up = t.map up)
  | [], [], _ => by simp [ciEqLoop]
  | a :: s, b :: t, h => by
    have ih := ciEqLoop_eq s t (by simpa using h)
    simp only [ciEqLoop, List.map_cons, List.cons.injEq]
    by_cases e : up a = up b
    · rw [if_neg (by rw [← up_eq, ← up_eq, e]; simp)]
      simp [ih, e]
    · rw [if_pos (by rw [ne_eq, sChar_inj, ← up_eq, ← up_eq]; exact e)]
      simp [e]
  | [], _ :: _, h => by simp at h
  | _ :: _, [], h => by simp at h

theorem ciCmpLoop_eq : ∀ s t : List UInt8, Ascii s → Ascii t → NulFree s → 
    ciCmpLoop s t = strncmp (if s.length < t.length then s.length else t.length) (s.map up) (t.map up)
  | [], t, _, _, _ => by cases t <;> simp [ciCmpLoop, strncmp]
  | a :: s, [], _, _, _ => by simp [ciCmpLoop, strncmp]
  | a :: s, b :: t, hs, ht, hn => by
    have ih := ciCmpLoop_eq s t (fun c hc => hs c (by simp [hc])) (fun c hc => ht c (by simp [hc])) (fun c hc => hn c (by simp [hc]))
    have e : (if (a :: s).length < (b :: t).length then (a :: s).length else (b :: t).length) =
        (if s.length < t.length then s.length else t.length) + 1 := by
      simp only [List.length_cons]; split <;> split <;> omega
    rw [e]
    simp only [List.map_cons, strncmp, ciCmpLoop, ← up_eq]
    rw [sChar_ascii (up_ascii a (hs a (by simp))), sChar_ascii (up_ascii b (ht b (by simp)))]
    have h0 : up a ≠ 0 := fun h => hn a (by simp) (up_nul a h)
    simp only [h0, if_false, ← ih]
    have c1 : ((up a).toNat : Int) < (up b).toNat ↔ up a < up b := by rw [UInt8.lt_iff_toNat_lt]; omega
    have c2 : ((up b).toNat : Int) < (up a).toNat ↔ up b < up a := by rw [UInt8.lt_iff_toNat_lt]; omega
    simp only [c1, c2]

/-! ## `gensym` -/

/-- Reading a decimal text back (helper). -/
def readDec (s : List UInt8) : Nat := s.foldl (fun a c => a * 10 + (c.toNat - 48)) 0

theorem dec_digit {d : Nat} (h : d < 10) : ((48 + d).toUInt8).toNat = 48 + d := by
  simp [Nat.toUInt8]; omega

theorem readDec_decLoop : ∀ fuel n, n < fuel → readDec (decLoop fuel n) = n
  | 0, n, h => by omega
  | fuel + 1, n, h => by
    unfold decLoop
    split
    · rename_i h10
      simp only [readDec, List.foldl_cons, List.foldl_nil]
      rw [dec_digit h10]; omega
    · have ih := readDec_decLoop fuel (n / 10) (by omega)
      unfold readDec at ih ⊢
      rw [List.foldl_append, ih]
      simp only [List.foldl_cons, List.foldl_nil]
      rw [dec_digit (Nat.mod_lt _ (by decide))]; omega

theorem decLoop_length : ∀ fuel n k, n < 10 ^ (k + 1) → (decLoop fuel n).length ≤ k + 1
  | 0, n, k, _ => by simp [decLoop]
  | fuel + 1, n, k, h => by
    unfold decLoop
    split
    · simp
    · cases k with
      | zero => omega
      | succ k =>
        have := decLoop_length fuel (n / 10) k (by rw [Nat.pow_succ] at h; omega)
        simp; omega

theorem decLoop_digits : ∀ fuel n, ∀ c ∈ decLoop fuel n, 48 ≤ c.toNat ∧ c.toNat ≤ 57
  | 0, n => by simp [decLoop]
  | fuel + 1, n => by
    unfold decLoop
    split
    · rename_i h
      intro c hc
      simp only [List.mem_singleton] at hc; subst hc
      rw [dec_digit h]; omega
    · intro c hc
      rw [List.mem_append] at hc
      rcases hc with hc | hc
      · exact decLoop_digits fuel _ c hc
      · simp only [List.mem_singleton] at hc; subst hc
        rw [dec_digit (Nat.mod_lt _ (by decide))]; omega

theorem printD_inj {m n : Nat} (h : printD m = printD n) : m = n := by
  have h1 := readDec_decLoop (m + 1) m (by omega)
  have h2 := readDec_decLoop (n + 1) n (by omega)
  unfold printD at h
  rw [h] at h1
  omega

/-- The name given by the `i`-th `gensym` (helper). -/
def gname (i : Nat) : List UInt8 := [32, 103] ++ printD i

theorem gname_fits {i : Nat} (h : i < 2 ^ 31) : snprintf 32 (gname i) = gname i := by
  unfold snprintf
  apply List.take_of_length_le
  have := decLoop_length (i + 1) i 9 (by omega)
  simp [gname, printD]; omega

theorem gname_nulFree (i : Nat) : NulFree (gname i) := by
  intro c hc
  unfold gname at hc
  rw [List.mem_append] at hc
  rcases hc with hc | hc
  · simp at hc; rcases hc with rfl | rfl <;> decide
  · have := decLoop_digits _ _ c hc
    rintro rfl
    simp at this

theorem gname_inj {i j : Nat} (h : gname i = gname j) : i = j := by
  unfold gname at h
  exact printD_inj (by simpa using h)

theorem gensym_run {i : Nat} (hi : i + 1 < 2 ^ 31) (h : Heap) :
    gensym i h = (.ok (⟨h.nextId, .sym (gname i)⟩, i + 1), { h with nextId := h.nextId + 1 }) := by
  simp only [gensym]
  rw [M.bind_ok (a := ((i : Int) + 1)) (h' := h) (by
    simp only [M.lift_app, i32]; rw [if_pos (by omega)])]
  have := gname_fits (i := i) (by omega)
  unfold gname at *
  rw [this]
  rfl

end Pscm
