import Verif.StrProps
import Verif.EqProps
/-! # Properties C33–C37: comparison of strings and characters, symbols, `gensym` -/
namespace Pscm
open Spec

/-- For examples: strings `"abc"`, `"abd"`, `"ab"`, `"a\0b"`, `"a\0c"`, `"\xE9"`, `"z"`, `"Abc"`, `"ABC"`, `"Z"`. -/
def exCH : Heap where
  nodes := []
  vecs := []
  strs := [[97, 98, 99], [97, 98, 100], [97, 98], [97, 0, 98], [97, 0, 99], [0xE9], [122], [65, 98, 99], [65, 66, 67], [90]]
  nextId := 500
def exStr (i : Nat) : Obj := ⟨60 + i, .str i⟩

/-- `o` is a string object holding the bytes `s`. -/
def Spec.HasBytes (h : Heap) (o : Obj) (s : List UInt8) : Prop := ∃ a, o.v = .str a ∧ h.strs[a]? = some s

/-! ## C33 — order -/

/-- C33: for all strings (with or without NUL), the five comparisons return; exactly one of `string<?`, `string=?`, `string>?` holds; `string<=?`
and `string>=?` are the unions; `string>?` is the converse of `string<?`. The heap is unchanged. -/
theorem c33_trichotomy (h : Heap) (x y : Obj) (s t : List UInt8) (hx : HasBytes h x s) (hy : HasBytes h y t) :
    ∃ l e g : Bool, stringLt x y h = (.ok l, h) ∧ stringEq x y h = (.ok e, h) ∧ stringGt x y h = (.ok g, h) ∧
      stringLe x y h = (.ok (l || e), h) ∧ stringGe x y h = (.ok (g || e), h) ∧ stringLt y x h = (.ok g, h) ∧ stringEq y x h = (.ok e, h) ∧
      ((l = true ∧ e = false ∧ g = false) ∨ (l = false ∧ e = true ∧ g = false) ∨ (l = false ∧ e = false ∧ g = true)) := by
  obtain ⟨a, hv, hs⟩ := hx
  obtain ⟨b, hw, ht⟩ := hy
  refine ⟨_, _, _, stringLt_run hv hs hw ht, stringEq_run hv hs hw ht, stringGt_run hv hs hw ht, ?_, ?_, ?_, ?_, ?_⟩
  · rw [stringLe_run hv hs hw ht]; cases cmpFull s t <;> rfl
  · rw [stringGe_run hv hs hw ht]; cases cmpFull s t <;> rfl
  · rw [stringLt_run hw ht hv hs]
    have := cmpFull_gt s t
    cases h1 : cmpFull s t <;> cases h2 : cmpFull t s <;> simp_all
  · rw [stringEq_run hw ht hv hs]
    have a1 := cmpFull_eq s t
    have a2 := cmpFull_eq t s
    by_cases he : cstr s = cstr t ∧ s.length = t.length
    · rw [a1.2 he, a2.2 ⟨he.1.symm, he.2.symm⟩]
    · have n1 : cmpFull s t ≠ .eq := fun hh => he (a1.1 hh)
      have n2 : cmpFull t s ≠ .eq := fun hh => he ⟨(a2.1 hh).1.symm, (a2.1 hh).2.symm⟩
      rw [beq_eq_false_iff_ne.2 n1, beq_eq_false_iff_ne.2 n2]
  · cases cmpFull s t <;> simp

example : HasBytes exCH (exStr 0) [97, 98, 99] ∧ HasBytes exCH (exStr 3) [97, 0, 98] := ⟨⟨0, rfl, rfl⟩, ⟨3, rfl, rfl⟩⟩

/-- C33: `string<?` is transitive, `string=?` is transitive and respected by `string<?` on both sides. -/
theorem c33_transitive (h : Heap) (x y z : Obj) (s t u : List UInt8) (hx : HasBytes h x s) (hy : HasBytes h y t) (hz : HasBytes h z u) :
    (stringLt x y h = (.ok true, h) → stringLt y z h = (.ok true, h) → stringLt x z h = (.ok true, h)) ∧
    (stringEq x y h = (.ok true, h) → stringEq y z h = (.ok true, h) → stringEq x z h = (.ok true, h)) ∧
    (stringEq x y h = (.ok true, h) → stringLt y z h = (.ok true, h) → stringLt x z h = (.ok true, h)) ∧
    (stringLt x y h = (.ok true, h) → stringEq y z h = (.ok true, h) → stringLt x z h = (.ok true, h)) ∧
    stringEq x x h = (.ok true, h) := by
  obtain ⟨a, hv, hs⟩ := hx
  obtain ⟨b, hw, ht⟩ := hy
  obtain ⟨c, hq, hu⟩ := hz
  rw [stringLt_run hv hs hw ht, stringLt_run hw ht hq hu, stringLt_run hv hs hq hu, stringEq_run hv hs hw ht, stringEq_run hw ht hq hu,
    stringEq_run hv hs hq hu, stringEq_run hv hs hv hs]
  have key : ∀ o p : Ordering, ((Res.ok (o == p), h) = ((Res.ok true, h) : Res Bool × Heap)) ↔ o = p := by
    intro o p; simp
  simp only [key, cmpFull_lt, cmpFull_eq]
  refine ⟨keyLt_trans, ?_, ?_, ?_, by simp⟩
  · rintro ⟨e1, l1⟩ ⟨e2, l2⟩; exact ⟨e1.trans e2, l1.trans l2⟩
  · rintro ⟨e1, l1⟩ h2; unfold keyLt at *; rw [e1, l1]; exact h2
  · rintro h1 ⟨e2, l2⟩; unfold keyLt at *; rw [← e2, ← l2]; exact h1

example : stringLt (exStr 2) (exStr 0) exCH = (.ok true, exCH) ∧ stringLt (exStr 0) (exStr 1) exCH = (.ok true, exCH) ∧
    stringEq (exStr 3) (exStr 4) exCH = (.ok true, exCH) := by decide

/-- C33: on NUL-free strings `string<?` is bytewise lexicographic order (bytes as unsigned numbers, a proper prefix first) and `string=?` is
equality of the bytes. -/
theorem c33_lexicographic (h : Heap) (x y : Obj) (s t : List UInt8) (hx : HasBytes h x s) (hy : HasBytes h y t)
    (hs0 : NulFree s) (ht0 : NulFree t) :
    (stringLt x y h = (.ok true, h) ↔ lexLt s t) ∧ (stringEq x y h = (.ok true, h) ↔ s = t) := by
  obtain ⟨a, hv, hs⟩ := hx
  obtain ⟨b, hw, ht⟩ := hy
  rw [stringLt_run hv hs hw ht, stringEq_run hv hs hw ht]
  constructor
  · have := cmpFull_lt s t
    unfold keyLt at this
    rw [cstr_nulFree hs0, cstr_nulFree ht0] at this
    simp only [Prod.mk.injEq, Res.ok.injEq, beq_iff_eq, and_true]
    rw [this]
    constructor
    · rintro (h | ⟨rfl, h⟩)
      · exact h
      · omega
    · exact Or.inl
  · have := cmpFull_eq s t
    rw [cstr_nulFree hs0, cstr_nulFree ht0] at this
    simp only [Prod.mk.injEq, Res.ok.injEq, beq_iff_eq, and_true]
    rw [this]
    constructor
    · exact fun h => h.1
    · rintro rfl; exact ⟨rfl, rfl⟩

example : NulFree [97, 98, 99] ∧ lexLt [97, 98] [97, 98, 99] ∧ lexLt [97, 98, 99] [97, 98, 100] := by
  simp [NulFree, lexLt]

/-- Equality of bytes is not what `string=?` decides once NUL occurs: two different strings are `string=?`. -/
theorem c33_nul_counterexample : HasBytes exCH (exStr 3) [97, 0, 98] ∧ HasBytes exCH (exStr 4) [97, 0, 99] ∧
    stringEq (exStr 3) (exStr 4) exCH = (.ok true, exCH) := ⟨⟨3, rfl, rfl⟩, ⟨4, rfl, rfl⟩, by decide⟩

/-! ## C34 — case-insensitive comparison -/

theorem stringCiCmp_run {h : Heap} {x y : Obj} {a b s t} (hx : x.v = .str a) (hs : h.strs[a]? = some s)
    (hy : y.v = .str b) (ht : h.strs[b]? = some t) (l g : Bool) (e : Nat → Nat → Bool) :
    stringCiCmp l g e x y h = (.ok (match ciCmpLoop s t with | .lt => l | .gt => g | .eq => e s.length t.length), h) := by
  simp only [stringCiCmp]
  rw [M.bind_ok (strOf_ok hx hs)]
  simp only
  rw [M.bind_ok (strOf_ok hy ht)]
  simp only
  cases ciCmpLoop s t <;> rfl

/-- C34: the four ordering procedures `string-ci<?` … agree with the case-sensitive ones on the upper-cased strings. Partial: for 7-bit strings
without NUL (see `c34_counterexample`). -/
theorem c34_order_partial (h : Heap) (x y x' y' : Obj) (s t : List UInt8) (hx : HasBytes h x s) (hy : HasBytes h y t)
    (hx' : HasBytes h x' (s.map up)) (hy' : HasBytes h y' (t.map up)) (as : Ascii s) (at' : Ascii t) (ns : NulFree s) :
    stringCiLt x y h = stringLt x' y' h ∧ stringCiGt x y h = stringGt x' y' h ∧
    stringCiLe x y h = stringLe x' y' h ∧ stringCiGe x y h = stringGe x' y' h := by
  obtain ⟨a, hv, hs⟩ := hx
  obtain ⟨b, hw, ht⟩ := hy
  obtain ⟨a', hv', hs'⟩ := hx'
  obtain ⟨b', hw', ht'⟩ := hy'
  have := ciCmpLoop_eq s t as at' ns
  refine ⟨?_, ?_, ?_, ?_⟩
  · rw [stringCiLt, stringLt, stringCiCmp_run hv hs hw ht, stringCmp_run hv' hs' hw' ht', this]; simp only [List.length_map]; rfl
  · rw [stringCiGt, stringGt, stringCiCmp_run hv hs hw ht, stringCmp_run hv' hs' hw' ht', this]; simp only [List.length_map]; rfl
  · rw [stringCiLe, stringLe, stringCiCmp_run hv hs hw ht, stringCmp_run hv' hs' hw' ht', this]; simp only [List.length_map]; rfl
  · rw [stringCiGe, stringGe, stringCiCmp_run hv hs hw ht, stringCmp_run hv' hs' hw' ht', this]; simp only [List.length_map]; rfl

example : HasBytes exCH (exStr 7) [65, 98, 99] ∧ HasBytes exCH (exStr 8) ([65, 98, 99].map up) ∧ Ascii [65, 98, 99] ∧ NulFree [65, 98, 99] := by
  refine ⟨⟨7, rfl, rfl⟩, ⟨8, rfl, by decide⟩, ?_, ?_⟩ <;> simp [Ascii, NulFree]

/-- C34: `string-ci=?` holds exactly when the upper-cased strings have the same bytes — for all strings. -/
theorem c34_eq (h : Heap) (x y : Obj) (s t : List UInt8) (hx : HasBytes h x s) (hy : HasBytes h y t) :
    ∃ e, stringCiEq x y h = (.ok e, h) ∧ (e = true ↔ s.map up = t.map up) := by
  obtain ⟨a, hv, hs⟩ := hx
  obtain ⟨b, hw, ht⟩ := hy
  simp only [stringCiEq]
  rw [M.bind_ok (strOf_ok hv hs)]
  simp only
  rw [M.bind_ok (strOf_ok hw ht)]
  by_cases hl : s.length = t.length
  · refine ⟨ciEqLoop s t, ?_, ciEqLoop_eq s t hl⟩
    simp [hl]
  · refine ⟨false, by simp [hl], ?_⟩
    simp only [Bool.false_eq_true, false_iff]
    intro e
    exact hl (by have := congrArg List.length e; simpa using this)

/-- C34: hence `string-ci=?` agrees with `string=?` on the upper-cased strings when they contain no NUL. -/
theorem c34_eq_agrees_partial (h : Heap) (x y x' y' : Obj) (s t : List UInt8) (hx : HasBytes h x s) (hy : HasBytes h y t)
    (hx' : HasBytes h x' (s.map up)) (hy' : HasBytes h y' (t.map up)) (ns : NulFree s) (nt : NulFree t) :
    stringCiEq x y h = stringEq x' y' h := by
  obtain ⟨e, he, hiff⟩ := c34_eq h x y s t hx hy
  have hn : ∀ {s : List UInt8}, NulFree s → NulFree (s.map up) := by
    intro s hs c hc
    obtain ⟨d, hd, rfl⟩ := List.mem_map.1 hc
    exact fun h0 => hs d hd (up_nul d h0)
  have := (c33_lexicographic h x' y' _ _ hx' hy' (hn ns) (hn nt)).2
  obtain ⟨l, e', g, -, h2, -⟩ := c33_trichotomy h x' y' _ _ hx' hy'
  rw [he, h2]
  rw [h2] at this
  simp only [Prod.mk.injEq, Res.ok.injEq, and_true] at this
  cases e <;> cases e' <;> simp_all

example : stringCiEq (exStr 0) (exStr 7) exCH = (.ok true, exCH) := by decide

/-- C34 fails beyond ASCII: `"\xE9"` is before `"z"` case-insensitively, although on the upper-cased strings it is after. -/
theorem c34_counterexample : HasBytes exCH (exStr 5) [0xE9] ∧ [(0xE9 : UInt8)].map up = [0xE9] ∧ [(122 : UInt8)].map up = [90] ∧
    stringCiLt (exStr 5) (exStr 6) exCH = (.ok true, exCH) ∧ stringLt (exStr 5) (exStr 9) exCH = (.ok false, exCH) :=
  ⟨⟨5, rfl, rfl⟩, by decide, by decide, by decide, by decide⟩

/-! ## C35 — characters -/

/-- C35: `integer->char` accepts exactly 0 … 255 and inverts `char->integer`; `char->integer` inverts `integer->char`. -/
theorem c35_inverse (h : Heap) :
    (∀ (o : Obj) (c : UInt8), o.v = .chr c → ∃ n h1 d h2, charToInteger o h = (.ok n, h1) ∧ integerToChar n h1 = (.ok d, h2) ∧ d.v = .chr c) ∧
    (∀ (o : Obj) (n : Int), o.v = .num n → 0 ≤ n → n ≤ 255 →
      ∃ d h1 m h2, integerToChar o h = (.ok d, h1) ∧ d.v = .chr n.toNat.toUInt8 ∧ charToInteger d h1 = (.ok m, h2) ∧ m.v = .num n) ∧
    (∀ (o : Obj), (∀ n : Int, o.v = .num n → n < 0 ∨ 255 < n) → integerToChar o h = (.err .evalError, h)) := by
  have run1 : ∀ (o : Obj) (c : UInt8) (h : Heap), o.v = .chr c →
      charToInteger o h = (.ok ⟨h.nextId, .num c.toNat⟩, { h with nextId := h.nextId + 1 }) := by
    intro o c h hv
    simp only [charToInteger]
    rw [M.bind_ok (x := M.lift _) (a := c) (h' := h) (by simp [charOf, hv])]
    rfl
  have run2 : ∀ (o : Obj) (n : Int) (h : Heap), o.v = .num n → 0 ≤ n → n ≤ 255 →
      integerToChar o h = (.ok ⟨h.nextId, .chr n.toNat.toUInt8⟩, { h with nextId := h.nextId + 1 }) := by
    intro o n h hv h1 h2
    simp only [integerToChar]
    rw [M.bind_ok (x := M.lift _) (a := n) (h' := h) (by simp [numOf, hv])]
    rw [if_neg (by omega)]
    rfl
  refine ⟨?_, ?_, ?_⟩
  · intro o c hv
    have hc := c.toNat_lt
    refine ⟨_, _, _, _, run1 o c h hv, run2 _ _ _ rfl (by omega) (by omega), ?_⟩
    simp
  · intro o n hv h1 h2
    refine ⟨_, _, _, _, run2 o n h hv h1 h2, rfl, run1 _ _ _ rfl, ?_⟩
    simp only [Nat.toUInt8, UInt8.toNat_ofNat']
    congr 1
    omega
  · intro o hbad
    simp only [integerToChar]
    cases hv : o.v with
    | num n =>
      rw [M.bind_ok (x := M.lift _) (a := n) (h' := h) (by simp [numOf, hv])]
      rw [if_pos (hbad n hv)]
      rfl
    | _ => exact M.bind_err (by simp [numOf, hv])

example : (integerToChar ⟨1, .num 233⟩ exCH).1 = .ok ⟨500, .chr 233⟩ ∧ (integerToChar ⟨1, .num 256⟩ exCH).1 = .err .evalError := by decide

/-- C35: the character comparisons are the comparisons of the codes; the `-ci` ones are the comparisons of the codes of the upper-case
characters. Anything but two characters is a Scheme error. -/
theorem c35_order (x y : Obj) :
    (∀ a b : UInt8, x.v = .chr a → y.v = .chr b →
      charEq x y = .ok (decide (a.toNat = b.toNat)) ∧ charLt x y = .ok (decide (a.toNat < b.toNat)) ∧
      charGt x y = .ok (decide (b.toNat < a.toNat)) ∧ charLe x y = .ok (decide (a.toNat ≤ b.toNat)) ∧
      charGe x y = .ok (decide (b.toNat ≤ a.toNat)) ∧
      charCiEq x y = .ok (decide ((up a).toNat = (up b).toNat)) ∧ charCiLt x y = .ok (decide ((up a).toNat < (up b).toNat)) ∧
      charCiGt x y = .ok (decide ((up b).toNat < (up a).toNat)) ∧ charCiLe x y = .ok (decide ((up a).toNat ≤ (up b).toNat)) ∧
      charCiGe x y = .ok (decide ((up b).toNat ≤ (up a).toNat))) ∧
    ((∀ a b : UInt8, ¬ (x.v = .chr a ∧ y.v = .chr b)) → charEq x y = .err .evalError ∧ charLt x y = .err .evalError ∧
      charGt x y = .err .evalError ∧ charLe x y = .err .evalError ∧ charGe x y = .err .evalError) := by
  constructor
  · intro a b ha hb
    have hcmp : ∀ p, charCmp p x y = .ok (p a b) := by intro p; simp [charCmp, charOf, ha, hb]
    have e1 : ∀ c d : UInt8, (c == d) = decide (c.toNat = d.toNat) := by
      intro c d
      by_cases h : c = d
      · simp [h]
      · rw [Bool.eq_iff_iff]; simp [h]; exact fun hh => h (UInt8.toNat_inj.1 hh)
    simp only [charEq, charLt, charGt, charLe, charGe, charCiEq, charCiLt, charCiGt, charCiLe, charCiGe, hcmp, up_eq, e1]
    simp only [UInt8.lt_iff_toNat_lt, UInt8.le_iff_toNat_le, and_self]
  · intro hbad
    have hcmp : ∀ p, charCmp p x y = .err .evalError := by
      intro p
      cases hx : x.v with
      | chr a =>
        cases hy : y.v with
        | chr b => exact absurd ⟨hx, hy⟩ (hbad a b)
        | _ => simp [charCmp, charOf, hx, hy]
      | _ => simp [charCmp, charOf, hx]
    exact ⟨hcmp _, hcmp _, hcmp _, hcmp _, hcmp _⟩

example : charLt ⟨1, .chr 97⟩ ⟨2, .chr 0xE9⟩ = .ok true ∧ charCiEq ⟨1, .chr 97⟩ ⟨2, .chr 65⟩ = .ok true := by decide

/-- C35: case conversion and classification: for every character, `char-upcase` is the ASCII upper case, `char-downcase` undoes it on lower-case
letters, both are idempotent, and the classes are consistent: alphabetic is the disjoint union of upper- and lower-case, and `char-upcase`
changes exactly the lower-case characters. -/
theorem c35_case (h : Heap) (o : Obj) (c : UInt8) (hv : o.v = .chr c) :
    charUpcase o h = (.ok ⟨h.nextId, .chr (up c)⟩, { h with nextId := h.nextId + 1 }) ∧
    (∃ d, charDowncase o h = (.ok ⟨h.nextId, .chr d⟩, { h with nextId := h.nextId + 1 }) ∧ up d = up c) ∧
    (∃ u l : Bool, charUpperCase o = .ok u ∧ charLowerCase o = .ok l ∧ charAlphabetic o = .ok (u || l) ∧ (u && l) = false ∧
      (l = true ↔ up c ≠ c)) := by
  have hc : charOf o = .ok c := by simp [charOf, hv]
  have t1 : ∀ c, up (toLower c) = up c := forall_u8 (by decide +kernel)
  have t2 : ∀ c, (isUpper c && isLower c) = false := forall_u8 (by decide +kernel)
  have t3 : ∀ c, (isLower c = true ↔ up c ≠ c) := forall_u8 (by decide +kernel)
  refine ⟨?_, ⟨toLower c, ?_, t1 c⟩, isUpper c, isLower c, ?_, ?_, ?_, t2 c, t3 c⟩
  · simp only [charUpcase, hc, ← up_eq]; rfl
  · simp only [charDowncase, hc]; rfl
  · simp only [charUpperCase, charClass, hc]; rfl
  · simp only [charLowerCase, charClass, hc]; rfl
  · simp only [charAlphabetic, charClass, hc]; rfl

example : (⟨1, .chr 97⟩ : Obj).v = .chr 97 ∧ up 97 = 65 := by decide

/-! ## C36 — symbols and strings -/

/-- C36: `string->symbol` makes a symbol named by the bytes of the string, `symbol->string` a new string with the bytes of the name; so each
undoes the other. (Names of `2^31 - 1` bytes or more overflow an `int`.) -/
theorem c36_inverse_partial (h : Heap) (x : Obj) (s : List UInt8) (hx : HasBytes h x s) (hlen : s.length < 2 ^ 31 - 1) :
    (∃ y h1 z h2, stringToSymbol x h = (.ok y, h1) ∧ y.v = .sym s ∧ Ext h h1 ∧ symbolToString y h1 = (.ok z, h2) ∧ HasBytes h2 z s) ∧
    (∀ y : Obj, y.v = .sym s → ∃ z h1 w h2, symbolToString y h = (.ok z, h1) ∧ stringToSymbol z h1 = (.ok w, h2) ∧ w.v = .sym s) := by
  have hi : i32 ((s.length : Int) + 1) = .ok ((s.length : Int) + 1) := by unfold i32; rw [if_pos (by omega)]
  have r1 : ∀ (x : Obj) (h : Heap), HasBytes h x s → stringToSymbol x h = (.ok ⟨h.nextId, .sym s⟩, { h with nextId := h.nextId + 1 }) := by
    rintro x h ⟨a, hv, hs⟩
    simp only [stringToSymbol]
    rw [M.bind_ok (strOf_ok hv hs)]
    simp only [createSym]
    rw [M.bind_ok (x := M.lift _) (h' := h) (by rw [hi]; rfl)]
    rfl
  have r2 : ∀ (y : Obj) (h : Heap), y.v = .sym s →
      symbolToString y h = (.ok ⟨h.nextId, .str h.strs.length⟩, { h with strs := h.strs ++ [s], nextId := h.nextId + 1 }) := by
    intro y h hv
    simp only [symbolToString, hv]
    rw [M.bind_ok (x := M.lift _) (h' := h) (by rw [hi]; rfl)]
    rfl
  constructor
  · exact ⟨_, _, _, _, r1 x h hx, rfl, ext_newId h _ (by omega), r2 _ _ rfl, _, rfl, by simp⟩
  · intro y hv
    exact ⟨_, _, _, _, r2 y h hv, r1 _ _ ⟨_, rfl, by simp⟩, rfl⟩

example : HasBytes exCH (exStr 0) [97, 98, 99] ∧ 3 < 2 ^ 31 - 1 := ⟨⟨0, rfl, rfl⟩, by decide⟩

/-- C36: two symbols with NUL-free names are `eq?` exactly when their names are equal, whatever the history that made them. -/
theorem c36_eq (F : FArith) (h : Heap) (x y : Obj) (s t : List UInt8) (hx : x.v = .sym s) (hy : y.v = .sym t) (hs : NulFree s) (ht : NulFree t) :
    eqP F h x y = .ok (decide (s = t)) := by
  unfold eqP
  by_cases he : x = y
  · subst he
    rw [hx] at hy; cases hy
    simp
  · rw [if_neg he, hx, hy]
    simp [Val.ty, symEq, cstr_nulFree hs, cstr_nulFree ht]

example : NulFree [97, 98] := by simp [NulFree]

/-- C36 fails with NUL: symbols made from the different strings `"a\0b"` and `"a\0c"` are `eq?`. -/
theorem c36_nul_counterexample (F : FArith) : ∃ x y h1 h2, stringToSymbol (exStr 3) exCH = (.ok x, h1) ∧
    stringToSymbol (exStr 4) h1 = (.ok y, h2) ∧ x.v ≠ y.v ∧ eqP F h2 x y = .ok true :=
  ⟨⟨500, .sym [97, 0, 98]⟩, ⟨501, .sym [97, 0, 99]⟩, { exCH with nextId := 501 }, { exCH with nextId := 502 }, by decide, by decide, by decide, rfl⟩

/-! ## C37 — gensym -/

/-- A run of `gensym` calls: before the i-th call the rest of the program does anything to the heap (`fs[i]`). `index` is the static counter. The
symbols obtained, in order. -/
def gensymRun : List (Heap → Heap) → Nat → M (List Obj)
  | [], _ => pure []
  | f :: fs, index => do
    let (o, index') ← (fun h => gensym index (f h))
    let r ← gensymRun fs index'
    pure (o :: r)

theorem gensymRun_names : ∀ (fs : List (Heap → Heap)) (i : Nat) (h : Heap), i + fs.length < 2 ^ 31 →
    ∃ os h', gensymRun fs i h = (.ok os, h') ∧ os.map (·.v) = (List.range' i fs.length).map (fun j => .sym (gname j))
  | [], i, h, _ => ⟨[], h, rfl, rfl⟩
  | f :: fs, i, h, hi => by
    simp only [List.length_cons] at hi
    obtain ⟨os, h', e, ho⟩ := gensymRun_names fs (i + 1) { (f h) with nextId := (f h).nextId + 1 } (by omega)
    refine ⟨⟨(f h).nextId, .sym (gname i)⟩ :: os, h', ?_, ?_⟩
    · simp only [gensymRun]
      rw [M.bind_ok (x := fun h => gensym i (f h)) (h := h) (gensym_run (by omega) (f h))]
      simp only
      rw [M.bind_ok e]
      rfl
    · simp [ho, List.range'_succ]

/-- C37: in any program history with fewer than `2^31` calls of `gensym`, the symbols returned are pairwise not `eq?`. -/
theorem c37_distinct_partial (F : FArith) (fs : List (Heap → Heap)) (h : Heap) (hn : fs.length < 2 ^ 31) :
    ∃ os h', gensymRun fs 0 h = (.ok os, h') ∧ os.length = fs.length ∧ os.Pairwise (fun a b => ∀ h', eqP F h' a b = .ok false) := by
  obtain ⟨os, h', e, ho⟩ := gensymRun_names fs 0 h (by omega)
  refine ⟨os, h', e, by have := congrArg List.length ho; simpa using this, ?_⟩
  rw [List.pairwise_iff_getElem]
  intro i j hi hj hij h''
  have hlen : os.length = fs.length := by have := congrArg List.length ho; simpa using this
  have hget : ∀ k (hk : k < os.length), os[k].v = .sym (gname k) := by
    intro k hk
    have := congrArg (fun l => l[k]?) ho
    simp [hk, show k < fs.length by omega] at this
    exact this
  rw [c36_eq F h'' _ _ _ _ (hget i hi) (hget j hj) (gname_nulFree i) (gname_nulFree j)]
  congr 1
  rw [decide_eq_false_iff_not]
  intro hg
  have := gname_inj hg
  omega

example : (gensymRun [id, fun h => { h with strs := [] }, id] 0 exCH).1 =
    .ok [⟨500, .sym [32, 103, 48]⟩, ⟨501, .sym [32, 103, 49]⟩, ⟨502, .sym [32, 103, 50]⟩] := by decide +kernel

/-- C37 ends at the 2^31-th call: the counter overflows (undefined behaviour). -/
theorem c37_overflow (h : Heap) : gensym (2 ^ 31 - 1) h = (.ub, h) := by
  have : i32 (((2 ^ 31 - 1 : Nat) : Int) + 1) = .ub := by decide
  simp only [gensym, this]
  rfl

/-- C37 does not extend to all symbols: a program can spell a future `gensym` name with `string->symbol`. -/
theorem c37_forgeable (F : FArith) : ∃ x y h1 h2, stringToSymbol ⟨0, .str 0⟩ ⟨[], [], [[32, 103, 48]], 9⟩ = (.ok x, h1) ∧
    gensym 0 h1 = (.ok (y, 1), h2) ∧ eqP F h2 x y = .ok true :=
  ⟨⟨9, .sym [32, 103, 48]⟩, ⟨10, .sym [32, 103, 48]⟩, ⟨[], [], [[32, 103, 48]], 10⟩, ⟨[], [], [[32, 103, 48]], 11⟩, by decide, by decide, rfl⟩

end Pscm
