import Verif.RdPosErase
import Verif.ReaderLemmas
/-!
# Positions: the invariant of the reader
-/
namespace Pscm.Rp
open Rd

/-- How the counters may change, for the text `text` and a relation between what was read and the counters. -/
structure Rules (text : Bytes) (Pos : Bytes → Nat → Nat → Prop) : Prop where
  plain : ∀ {pre b suf l c}, text = pre ++ b :: suf → b ≠ 10 → Pos pre l c → Pos (pre ++ [b]) l (c + 1)
  newline : ∀ {pre suf l c}, text = pre ++ 10 :: suf → Pos pre l c → Pos (pre ++ [10]) (l + 1) 1
  escaped : ∀ {pre b suf l c}, text = pre ++ 92 :: b :: suf → Pos (pre ++ [92]) l c → Pos (pre ++ [92, b]) l (c + 1)
  string : ∀ {pre suf l c}, text = pre ++ 10 :: suf → 34 ∈ pre → Pos pre l c → Pos (pre ++ [10]) (l + 1) 2
  brace : ∀ {pre suf l c}, text = pre ++ 10 :: suf → 123 ∈ pre → Pos pre l c → Pos (pre ++ [10]) (l + 1) 0
  colon : ∀ {pre suf l c}, text = pre ++ 35 :: 58 :: suf → Pos pre l c → Pos (pre ++ [35, 58]) l c

section
variable {text : Bytes} {Pos : Bytes → Nat → Nat → Prop} {F : FloIO} {old : List Frame}

/-- The counters are right where `r` is left to read. -/
def At (text : Bytes) (Pos : Bytes → Nat → Nat → Prop) (r : Bytes) (l c : Nat) : Prop := ∃ pre, text = pre ++ r ∧ Pos pre l c

/-- A recorded position is right. -/
def Right (text : Bytes) (Pos : Bytes → Nat → Nat → Prop) (left l c : Nat) : Prop := ∃ suf, suf.length = left ∧ At text Pos suf l c

/-- The position, the recorded positions and the frames (but those of earlier texts) are right. -/
structure Inv (text : Bytes) (Pos : Bytes → Nat → Nat → Prop) (old : List Frame) (p : P) : Prop where
  here : At text Pos p.r p.line p.col
  log : ∀ m ∈ p.log, Right text Pos m.left m.line m.col
  stk : ∀ f ∈ p.stk, f ∈ old ∨ Right text Pos f.left f.line f.col

def Fine (text : Bytes) (Pos : Bytes → Nat → Nat → Prop) (old : List Frame) : Q → Prop
  | .ok _ p | .null p | .err p => Inv text Pos old p
  | _ => True

theorem At.plain (R : Rules text Pos) {b : UInt8} {t : Bytes} {l c : Nat} (h : At text Pos (b :: t) l c) (hb : b ≠ 10) : At text Pos t l (c + 1) := by
  obtain ⟨pre, e, hp⟩ := h
  exact ⟨pre ++ [b], by simp [e], R.plain e hb hp⟩

theorem At.newline (R : Rules text Pos) {t : Bytes} {l c : Nat} (h : At text Pos (10 :: t) l c) : At text Pos t (l + 1) 1 := by
  obtain ⟨pre, e, hp⟩ := h
  exact ⟨pre ++ [10], by simp [e], R.newline e hp⟩

theorem At.escaped (R : Rules text Pos) {b : UInt8} {t : Bytes} {l c : Nat} (h : At text Pos (92 :: b :: t) l c) : At text Pos t l (c + 2) := by
  obtain ⟨pre, e, hp⟩ := h
  exact ⟨pre ++ [92, b], by simp [e], R.escaped e (R.plain e (by decide) hp)⟩

theorem At.all (R : Rules text Pos) : ∀ (bs t : Bytes) (l c : Nat), At text Pos (bs ++ t) l c → 10 ∉ bs → At text Pos t l (c + bs.length)
  | [], _, _, _, h, _ => h
  | b :: bs, t, l, c, h, hb => by
    have := At.all R bs t l (c + 1) (At.plain R h (by rintro rfl; simp at hb)) (fun h' => hb (by simp [h']))
    rw [List.length_cons, show c + (bs.length + 1) = c + 1 + bs.length by omega]
    exact this

theorem Inv.move {p : P} (h : Inv text Pos old p) {r : Bytes} {l c : Nat} (ha : At text Pos r l c) : Inv text Pos old { p with r := r, line := l, col := c } :=
  ⟨ha, h.log, h.stk⟩

theorem Inv.pop {p : P} (h : Inv text Pos old p) : Inv text Pos old (pop p) := ⟨h.here, h.log, fun f hf => h.stk f (List.mem_of_mem_tail hf)⟩

theorem Inv.right {p : P} (h : Inv text Pos old p) : Right text Pos p.r.length p.line p.col := ⟨p.r, rfl, h.here⟩

theorem Inv.push {p : P} (h : Inv text Pos old p) (k : Kind) : Inv text Pos old (push k p) := by
  unfold Rp.push
  split
  · exact h
  · refine ⟨h.here, h.log, fun f hf => ?_⟩
    rcases List.mem_cons.1 hf with rfl | hf
    · exact .inr h.right
    · exact h.stk f hf

theorem Fine.mark {p0 p : P} (h0 : Inv text Pos old p0) (h : Inv text Pos old p) (d : D) : Fine text Pos old (mark p0 d p) := by
  refine ⟨h.here, fun m hm => ?_, h.stk⟩
  rcases List.mem_cons.1 hm with rfl | hm
  · exact h0.right
  · exact h.log m hm

/-- Whitespace. -/
theorem At.skip (R : Rules text Pos) : ∀ (r : Bytes) (b : Bool) (l c : Nat), At text Pos r l c →
    At text Pos (skipPos b r l c).1 (skipPos b r l c).2.1 (skipPos b r l c).2.2 := by
  intro r
  induction r with
  | nil => intro b l c h; exact h
  | cons x t ih =>
    intro b l c h
    rw [skipPos]
    split
    · split
      · rename_i hx
        obtain rfl : x = 10 := by simpa using hx
        exact ih _ _ _ (h.newline R)
      · rename_i hx
        split
        · exact h
        · exact ih _ _ _ (h.plain R (by simpa using hx))
    · split
      · split
        · rename_i hx
          obtain rfl : x = 10 := by simpa using hx
          exact ih _ _ _ (h.newline R)
        · rename_i hx
          exact ih _ _ _ (h.plain R (by simpa using hx))
      · split
        · rename_i hx
          obtain rfl : x = 59 := by simpa using hx
          exact ih _ _ _ (h.plain R (by decide))
        · exact h

theorem Inv.skip (R : Rules text Pos) {p : P} (h : Inv text Pos old p) : Inv text Pos old (skipWs p) := h.move (h.here.skip R _ _ _)

theorem dropWhile_append' (c : UInt8 → Bool) (r : Bytes) : r = r.takeWhile c ++ r.dropWhile c := (List.takeWhile_append_dropWhile).symm

theorem Inv.over (R : Rules text Pos) {p : P} (h : Inv text Pos old p) (c : UInt8 → Bool) (hc : c 10 = false) : Inv text Pos old (over c p) := by
  refine ⟨?_, h.log, h.stk⟩
  have := h.here
  rw [dropWhile_append' c p.r] at this
  refine At.all R _ _ _ _ this fun hm => ?_
  have := takeWhile_digits (p := c) p.r 10 hm
  rw [hc] at this
  cases this

/-- Advancing over bytes that are no newlines. -/
theorem Fine.adv (R : Rules text Pos) {p : P} (h : Inv text Pos old p) {k : Nat} {f : P → Q} (hb : 10 ∉ p.r.take k)
    (hf : ∀ p', Inv text Pos old p' → p'.r = p.r.drop k → Fine text Pos old (f p')) : Fine text Pos old (adv p k f) := by
  unfold Rp.adv
  split
  · rename_i hk
    refine hf _ ⟨?_, h.log, h.stk⟩ rfl
    have := h.here
    rw [← List.take_append_drop k p.r] at this
    have := At.all R _ _ _ _ this hb
    rwa [List.length_take, Nat.min_eq_left hk] at this
  · trivial

theorem Fine.look {p : P} {k : Nat} {f : UInt8 → Q} (hf : Fine text Pos old (f (p.r.getD k 0))) : Fine text Pos old (look p k f) := by
  unfold Rp.look
  split
  · exact hf
  · trivial

theorem Fine.ite {c : Prop} [Decidable c] {a b : Q} (h1 : c → Fine text Pos old a) (h2 : ¬ c → Fine text Pos old b) : Fine text Pos old (if c then a else b) := by
  split
  · exact h1 ‹_›
  · exact h2 ‹_›

theorem Fine.need {b : Bool} {x : Q} {f : D → P → Q} (hx : Fine text Pos old x) (hf : ∀ d p, Inv text Pos old p → Fine text Pos old (f d p)) :
    Fine text Pos old (need b x f) := by
  cases x with
  | ok d p => exact hf d p hx
  | null p =>
    show Inv text Pos old (if b then Rp.pop p else p)
    split
    · exact Inv.pop hx
    · exact hx
  | err p => exact hx
  | _ => trivial

theorem Fine.orElse {x f : Q} (hx : Fine text Pos old x) (hf : Fine text Pos old f) : Fine text Pos old (orElse x f) := by
  cases x <;> first | exact hf | exact hx

theorem head_take {r : Bytes} {k : Nat} {a : UInt8} (h : cur r = a) (ha : a ≠ 10) : 10 ∉ r.take 1 := by
  cases r with
  | nil => simp
  | cons c t =>
    have : c = a := h
    subst this
    simpa using fun h => ha h.symm

theorem take_two {r : Bytes} {a b : UInt8} (h : cur r = a) (h2 : r.getD 1 0 = b) (ha : a ≠ 10) (hb : b ≠ 10) : 10 ∉ r.take 2 := by
  match r, h, h2 with
  | [], _, _ => simp
  | [c], h, _ =>
    have : c = a := h
    subst this
    simpa using fun h => ha h.symm
  | c :: d :: t, h, h2 =>
    have e1 : c = a := h
    have e2 : d = b := h2
    subst e1 e2
    simp only [List.take_succ_cons, List.take_zero, List.mem_cons, List.not_mem_nil, or_false]
    rintro (h | h)
    · exact ha h.symm
    · exact hb h.symm

theorem cur_take {r : Bytes} (h : cur r ≠ 10) : 10 ∉ r.take 1 := by
  cases r with
  | nil => simp
  | cons c t => simpa using fun h' => h h'.symm

theorem isDigit_nl : isDigit 10 = false := by decide
theorem isAlpha_nl : isAlpha 10 = false := by decide

/-! ## Atoms -/

theorem pExp_fine (R : Rules text Pos) {p0 p : P} (h0 : Inv text Pos old p0) (h : Inv text Pos old p) {neg n frac} (hc : cur p.r ≠ 10) :
    Fine text Pos old (pExp F p0 neg n frac p) := by
  unfold pExp
  refine Fine.adv R h (cur_take hc) fun p1 h1 _ => ?_
  refine Fine.adv R h1 ?_ fun p2 h2 _ => Fine.ite (fun hd => ?_) fun _ => h2
  · split
    · rename_i hs
      refine cur_take fun hn => ?_
      rw [hn] at hs
      simp at hs
    · simp
  · split
    · trivial
    · exact Fine.mark h0 (h2.over R _ isDigit_nl) _

theorem pTail_fine (R : Rules text Pos) {p0 p : P} (h0 : Inv text Pos old p0) (h : Inv text Pos old p) {neg n frac} :
    Fine text Pos old (pTail F p0 neg n frac p) := by
  unfold pTail
  refine Fine.ite (fun hc => pExp_fine R h0 h fun hn => ?_) fun _ => ?_
  · rw [hn] at hc
    simp at hc
  · split <;> exact Fine.mark h0 h _

theorem pDigits_fine (R : Rules text Pos) {p0 p : P} (h0 : Inv text Pos old p0) (h : Inv text Pos old p) {neg} : Fine text Pos old (pDigits F p0 neg p) := by
  unfold pDigits
  split
  · trivial
  · have h1 := h.over R isDigit isDigit_nl
    refine Fine.ite (fun hc => Fine.adv R h1 (cur_take fun hn => ?_) fun p2 h2 _ => pTail_fine R h0 (h2.over R _ isDigit_nl)) fun _ => pTail_fine R h0 h1
    rw [hn] at hc
    simp at hc

theorem pNumber_fine (R : Rules text Pos) {p : P} (h : Inv text Pos old p) : Fine text Pos old (pNumber F p) := by
  unfold pNumber
  refine Fine.ite (fun hc => Fine.look (Fine.ite (fun _ => Fine.adv R h (cur_take fun hn => ?_) fun p1 h1 _ => pDigits_fine R h h1) fun _ => h)) fun _ =>
    Fine.ite (fun hc => Fine.look (Fine.ite (fun _ => Fine.adv R h (cur_take fun hn => ?_) fun p1 h1 _ => pDigits_fine R h h1) fun _ => h)) fun _ =>
    Fine.ite (fun _ => pDigits_fine R h h) fun _ => h
  · rw [hn] at hc; simp at hc
  · rw [hn] at hc; simp at hc

/-- One byte after a backslash, whatever it is. -/
theorem Fine.adv_escaped (R : Rules text Pos) {p : P} (h : Inv text Pos old p) (h2 : cur p.r = 35) (h3 : p.r.getD 1 0 = 92) {p1 : P}
    (e : p1 = { p with r := p.r.drop 2, col := p.col + 2 }) {f : P → Q} (hf : ∀ p', Inv text Pos old p' → Fine text Pos old (f p')) :
    Fine text Pos old (Rp.adv p1 1 f) := by
  unfold Rp.adv
  split
  · rename_i hk
    subst e
    refine hf _ ⟨?_, h.log, h.stk⟩
    have ha := h.here
    match hr : p.r, h2, h3, hk, ha with
    | [], h2, _, _, _ => cases h2
    | [_], _, h3, _, _ => cases h3
    | [a, b], _, _, hk, _ => simp [hr] at hk
    | a :: b :: x :: t, h2, h3, _, ha =>
      have e1 : a = 35 := h2
      have e2 : b = 92 := h3
      subst e1 e2
      have := (ha.plain R (by decide)).escaped R
      simpa [hr] using this
  · trivial

theorem pChar_fine (R : Rules text Pos) {p : P} (h : Inv text Pos old p) : Fine text Pos old (pChar p) := by
  unfold pChar
  refine Fine.ite (fun hc => Fine.look (Fine.ite (fun hd => ?_) fun _ => h)) fun _ => h
  have hc : cur p.r = 35 := by simpa using hc
  have hd : p.r.getD 1 0 = 92 := by simpa using hd
  unfold Rp.adv
  split
  · have h1 : Inv text Pos old { p with r := p.r.drop 2, col := p.col + 2 } := by
      refine ⟨?_, h.log, h.stk⟩
      have := h.here
      rw [← List.take_append_drop 2 p.r] at this
      have := At.all R _ _ _ _ this (take_two hc hd (by decide) (by decide))
      rwa [List.length_take, Nat.min_eq_left ‹_›] at this
    refine Fine.ite (fun _ => h1) fun _ => Fine.ite (fun _ => ?_) fun _ => Fine.ite (fun _ => ?_) fun _ => ?_
    · exact Fine.adv_escaped R h hc hd rfl fun p' h' => Fine.mark h h' _
    · split
      · exact Fine.mark h (h1.over R _ isAlpha_nl) _
      · exact Fine.adv_escaped R h hc hd rfl fun p' h' => Fine.mark h h' _
    · exact Fine.adv_escaped R h hc hd rfl fun p' h' => Fine.mark h h' _
  · trivial

/-- The loop over a string: `escape` after a backslash. -/
theorem At.str (R : Rules text Pos) : ∀ (r : Bytes) (escape : Bool) (pre : Bytes) (l c : Nat), text = pre ++ r → 34 ∈ pre →
    (escape = true → ∃ pre', pre = pre' ++ [92]) → Pos pre l c →
    At text Pos (strPos escape r l c).1 (strPos escape r l c).2.1 (strPos escape r l c).2.2 ∧
    (∀ raw r2, scanStr escape r = some (raw, r2) → (strPos escape r l c).1 = 34 :: r2) := by
  intro r
  induction r with
  | nil => intro e pre l c ht _ _ hp; exact ⟨⟨pre, ht, hp⟩, fun raw r2 h => by cases h⟩
  | cons b t ih =>
    intro e pre l c ht hq he hp
    have key : ∀ (e' : Bool) (l' c' : Nat), (e' = true → b = 92) → Pos (pre ++ [b]) l' c' →
        At text Pos (strPos e' t l' c').1 (strPos e' t l' c').2.1 (strPos e' t l' c').2.2 ∧
        (∀ raw r2, (scanStr e' t).map (fun x => (b :: x.1, x.2)) = some (raw, r2) → (strPos e' t l' c').1 = 34 :: r2) := by
      intro e' l' c' hb hp'
      obtain ⟨i1, i2⟩ := ih e' (pre ++ [b]) l' c' (by simp [ht]) (by simp [hq]) (fun h => ⟨pre, by rw [hb h]⟩) hp'
      refine ⟨i1, fun raw r2 h => ?_⟩
      cases hs : scanStr e' t with
      | none => rw [hs] at h; cases h
      | some x =>
        rw [hs] at h
        simp only [Option.map_some, Option.some.injEq, Prod.mk.injEq] at h
        exact i2 _ _ (by rw [hs, ← h.2])
    rw [strPos, scanStr]
    by_cases h0 : b == 0
    · simp only [if_pos h0]; exact ⟨⟨pre, ht, hp⟩, fun raw r2 h => by cases h⟩
    simp only [if_neg h0]
    by_cases h1 : e = true
    · simp only [if_pos h1]
      obtain ⟨pre', rfl⟩ := he h1
      have := R.escaped (pre := pre') (b := b) (suf := t) (by simpa using ht) hp
      exact key false l (c + 1) (fun h => by cases h) (by simpa using this)
    simp only [if_neg h1]
    by_cases h2 : b == 92
    · simp only [if_pos h2]
      have e92 : b = 92 := by simpa using h2
      exact key true l (c + 1) (fun _ => e92) (R.plain ht (by rw [e92]; decide) hp)
    simp only [if_neg h2]
    by_cases h3 : b == 34
    · simp only [if_pos h3]
      have e34 : b = 34 := by simpa using h3
      exact ⟨⟨pre, ht, hp⟩, fun raw r2 h => by simp only [Option.some.injEq, Prod.mk.injEq] at h; rw [e34, h.2]⟩
    simp only [if_neg h3]
    by_cases h4 : b == 10
    · simp only [if_pos h4]
      have e10 : b = 10 := by simpa using h4
      subst e10
      exact key false (l + 1) 2 (fun h => by cases h) (R.string ht hq hp)
    · simp only [if_neg h4]
      exact key false l (c + 1) (fun h => by cases h) (R.plain ht (by simpa using h4) hp)

theorem pString_fine (R : Rules text Pos) {p : P} (h : Inv text Pos old p) (hc : cur p.r = 34) : Fine text Pos old (pString p) := by
  unfold pString
  have hr : ∃ t, p.r = 34 :: t := cur_ne hc (by decide)
  obtain ⟨t, hr⟩ := hr
  unfold Rp.adv
  split
  · obtain ⟨pre, e, hp⟩ := h.here
    have h1 := h.push .string
    have ep : (Rp.push .string p).line = p.line ∧ (Rp.push .string p).col = p.col := by unfold Rp.push; split <;> exact ⟨rfl, rfl⟩
    rw [hr] at e
    obtain ⟨k1, k2⟩ := At.str R t false (pre ++ [34]) p.line (p.col + 1) (by simp [e]) (by simp) (fun h => by cases h) (R.plain e (by decide) hp)
    simp only [push_r, hr, List.drop_one, List.tail_cons, ep.1, ep.2]
    cases hs : scanStr false t with
    | none => exact Inv.pop (h1.move k1)
    | some x =>
      obtain ⟨raw, r2⟩ := x
      rw [k2 raw r2 hs] at k1
      exact Fine.mark h (Inv.pop (Inv.pop (h1.move (k1.plain R (by decide))))) _
  · trivial

theorem Fine.litEnd {a b : UInt8} {p : P} {y n : Q} (hy : cur p.r = a → p.r.getD 1 0 = b → Fine text Pos old y) (hn : Fine text Pos old n) :
    Fine text Pos old (litEnd a b p y n) := by
  unfold Rp.litEnd
  exact Fine.ite (fun h => Fine.look (Fine.ite (fun h2 => Fine.look (Fine.ite (fun _ => hy (by simpa using h) (by simpa using h2)) fun _ => hn)) fun _ => hn))
    fun _ => hn

theorem isConst_nl : isConst 10 = false := by decide

theorem scanSym_split : ∀ (r : Bytes), r = (scanSym r).1 ++ (scanSym r).2 ∧ 10 ∉ (scanSym r).1
  | [] => ⟨rfl, by simp [scanSym]⟩
  | [c] => by
    rw [scanSym]
    split
    · rename_i h
      refine ⟨rfl, ?_⟩
      simp only [List.mem_cons, List.not_mem_nil, or_false]
      rintro rfl
      rw [isConst_nl] at h
      simp at h
    · exact ⟨rfl, by simp⟩
  | c :: d :: u => by
    rw [scanSym]
    split
    · rename_i hc
      have e92 : c = 92 := by simpa using hc
      split
      · rename_i hd
        obtain ⟨i1, i2⟩ := scanSym_split u
        refine ⟨by simp only [List.cons_append]; rw [← i1], ?_⟩
        simp only [List.mem_cons, not_or]
        refine ⟨by rw [e92]; decide, ?_, i2⟩
        rintro rfl
        simp [isSpace] at hd
      · obtain ⟨i1, i2⟩ := scanSym_split (d :: u)
        refine ⟨by simp only [List.cons_append]; rw [← i1], ?_⟩
        simp only [List.mem_cons, not_or]
        exact ⟨by rw [e92]; decide, i2⟩
    · split
      · rename_i hc
        obtain ⟨i1, i2⟩ := scanSym_split (d :: u)
        refine ⟨by simp only [List.cons_append]; rw [← i1], ?_⟩
        simp only [List.mem_cons, not_or]
        refine ⟨?_, i2⟩
        rintro rfl
        rw [isConst_nl] at hc
        cases hc
      · exact ⟨rfl, by simp⟩

theorem pSymbol_fine (R : Rules text Pos) {p : P} (h : Inv text Pos old p) : Fine text Pos old (pSymbol p) := by
  unfold pSymbol
  refine Fine.litEnd (fun h1 h2 => Fine.adv R h (take_two h1 h2 (by decide) (by decide)) fun p' h' _ => Fine.mark h h' _) ?_
  refine Fine.litEnd (fun h1 h2 => Fine.adv R h (take_two h1 h2 (by decide) (by decide)) fun p' h' _ => Fine.mark h h' _) ?_
  refine Fine.ite (fun _ => h) fun _ => ?_
  have := h.here
  rw [(scanSym_split p.r).1] at this
  exact Fine.mark h (h.move (At.all R _ _ _ _ this (scanSym_split p.r).2)) _

/-- The loop over `#{...}#`. -/
theorem At.braceLoop (R : Rules text Pos) : ∀ (r : Bytes) (n : Nat) (pre : Bytes) (l c : Nat), text = pre ++ r → 123 ∈ pre → Pos pre l c →
    At text Pos (bracePos n r l c).1 (bracePos n r l c).2.1 (bracePos n r l c).2.2 ∧
    (∀ raw r2, scanBrace n r = some (raw, r2) → (bracePos n r l c).1 = 125 :: r2) := by
  intro r
  induction r with
  | nil => intro n pre l c ht _ hp; exact ⟨⟨pre, ht, hp⟩, fun raw r2 h => by cases h⟩
  | cons b t ih =>
    intro n pre l c ht hq hp
    have key : ∀ (m : Nat) (l' c' : Nat), Pos (pre ++ [b]) l' c' →
        At text Pos (bracePos m t l' c').1 (bracePos m t l' c').2.1 (bracePos m t l' c').2.2 ∧
        (∀ raw r2, (scanBrace m t).map (fun x => (b :: x.1, x.2)) = some (raw, r2) → (bracePos m t l' c').1 = 125 :: r2) := by
      intro m l' c' hp'
      obtain ⟨i1, i2⟩ := ih m (pre ++ [b]) l' c' (by simp [ht]) (by simp [hq]) hp'
      refine ⟨i1, fun raw r2 h => ?_⟩
      cases hs : scanBrace m t with
      | none => rw [hs] at h; cases h
      | some x =>
        rw [hs] at h
        simp only [Option.map_some, Option.some.injEq, Prod.mk.injEq] at h
        exact i2 _ _ (by rw [hs, ← h.2])
    have hplain : b ≠ 10 → Pos (pre ++ [b]) l (c + 1) := fun hb => R.plain ht hb hp
    rw [bracePos.eq_def, scanBrace.eq_def]
    simp only
    by_cases h0 : b == 0
    · simp only [if_pos h0]; exact ⟨⟨pre, ht, hp⟩, fun raw r2 h => by cases h⟩
    simp only [if_neg h0]
    by_cases h2 : b == 123
    · simp only [if_pos h2]
      have e : b = 123 := by simpa using h2
      exact key (n + 1) l (c + 1) (hplain (by rw [e]; decide))
    simp only [if_neg h2]
    by_cases h3 : b == 125
    · simp only [if_pos h3]
      have e : b = 125 := by simpa using h3
      cases n with
      | zero => exact ⟨⟨pre, ht, hp⟩, fun raw r2 h => by simp only [Option.some.injEq, Prod.mk.injEq] at h; rw [e, h.2]⟩
      | succ k => exact key k l (c + 1) (hplain (by rw [e]; decide))
    simp only [if_neg h3]
    by_cases h4 : b == 10
    · simp only [if_pos h4]
      have e10 : b = 10 := by simpa using h4
      subst e10
      exact key n (l + 1) 0 (R.brace ht hq hp)
    · simp only [if_neg h4]
      exact key n l (c + 1) (hplain (by simpa using h4))

theorem pBrace_fine (R : Rules text Pos) {p : P} (h : Inv text Pos old p) (h1 : cur p.r = 35) (h2 : p.r.getD 1 0 = 123) : Fine text Pos old (pBrace p) := by
  unfold pBrace
  refine Fine.adv R h (take_two h1 h2 (by decide) (by decide)) fun p1 i1 e1 => ?_
  have hr : ∃ t, p.r = 35 :: 123 :: t := by
    obtain ⟨t, e⟩ := cur_ne h1 (by decide)
    rw [e] at h2
    cases t with
    | nil => cases h2
    | cons x t => exact ⟨t, by rw [e]; congr 1; congr 1⟩
  obtain ⟨t, hr⟩ := hr
  rw [hr] at e1
  obtain ⟨pre, e, hp⟩ := i1.here
  have hpre : 123 ∈ pre := by
    obtain ⟨pre0, e0, _⟩ := h.here
    rw [hr] at e0
    rw [e1] at e
    have : pre = pre0 ++ [35, 123] := by
      have e' : pre ++ t = (pre0 ++ [35, 123]) ++ t := by
        have := e.symm.trans e0
        simpa using this
      exact List.append_cancel_right e'
    rw [this]
    simp
  obtain ⟨k1, k2⟩ := At.braceLoop R p1.r 0 pre p1.line p1.col e hpre hp
  dsimp only
  split
  · exact ⟨k1, i1.log, i1.stk⟩
  · rename_i name r2 hs
    rw [k2 name r2 hs] at k1
    have i2 : Inv text Pos old { p1 with r := r2, line := (bracePos 0 p1.r p1.line p1.col).2.1, col := (bracePos 0 p1.r p1.line p1.col).2.2 + 1 } :=
      ⟨k1.plain R (by decide), i1.log, i1.stk⟩
    refine Fine.ite (fun hc => Fine.adv R i2 (cur_take fun hn => ?_) fun p' h' _ => Fine.mark h h' _) fun _ => i2
    have hc' : cur r2 = 35 := by simpa using hc
    rw [show cur r2 = 10 from hn] at hc'
    cases hc'

theorem pAtom_fine (R : Rules text Pos) {p : P} (h : Inv text Pos old p) : Fine text Pos old (pAtom F p) := by
  unfold pAtom
  have h1 : Fine text Pos old (orElse (pNumber F p) (orElse (pSymbol p) (.err p))) := (pNumber_fine R h).orElse ((pSymbol_fine R h).orElse h)
  have h2 := (pSymbol_fine R h).orElse h1
  exact Fine.litEnd (fun _ _ => h2) (Fine.litEnd (fun _ _ => h2) h1)

theorem close_fine (R : Rules text Pos) {b : Bool} {d : D} {p : P} (h : Inv text Pos old p) : Fine text Pos old (close b d p) := by
  unfold close
  refine Fine.ite (fun hc => Fine.adv R h (cur_take fun hn => ?_) fun p' h' _ => h') fun _ => ?_
  · rw [hn] at hc; cases hc
  · show Inv text Pos old (if b then Rp.pop p else p)
    split
    · exact h.pop
    · exact h

/-! ## Compound data -/

variable {rec : Job → P → Q}

theorem step_fine (R : Rules text Pos) (hrec : ∀ j p, Inv text Pos old p → Fine text Pos old (rec j p)) (j : Job) {p : P} (h : Inv text Pos old p) :
    Fine text Pos old (step F rec j p) := by
  have cn : ∀ {r : Bytes} {a : UInt8}, (cur r == a) = true → a ≠ 10 → 10 ∉ r.take 1 := fun {r a} hc ha => cur_take fun hn => ha (by
    rw [hn] at hc; exact (by simpa using hc : (10 : UInt8) = a).symm)
  have ue : ∀ {p : P}, Inv text Pos old p → Fine text Pos old (orElse (rec .unq p) (rec .expr p)) := fun h => (hrec _ _ h).orElse (hrec _ _ h)
  cases j with
  | expr =>
    show Fine text Pos old (pExpr F rec p)
    unfold pExpr
    have h1 := h.skip R
    refine Fine.ite (fun _ => h1) fun _ => Fine.ite (fun _ => hrec _ _ h1) fun _ => Fine.ite (fun _ => hrec _ _ h1) fun _ =>
      Fine.ite (fun _ => hrec _ _ h1) fun _ => Fine.ite (fun hc => pString_fine R h1 (by simpa using hc)) fun _ => ?_
    unfold pHash
    have hp := (pChar_fine R h1).orElse ((hrec .vec _ h1).orElse (pAtom_fine (F := F) R h1))
    refine Fine.ite (fun hc => Fine.look (Fine.ite (fun hd => ?_) fun _ => Fine.ite (fun hd => pBrace_fine R h1 (by simpa using hc) (by simpa using hd))
      fun _ => hp)) fun _ => hp
    have hc : cur (skipWs p).r = 35 := by simpa using hc
    have hd : (skipWs p).r.getD 1 0 = 58 := by simpa using hd
    unfold Rp.adv
    split
    · refine Fine.need (pSymbol_fine R ⟨?_, h1.log, h1.stk⟩) fun _ _ h => h
      obtain ⟨pre, e, hpos⟩ := h1.here
      obtain ⟨t, e1⟩ := cur_ne hc (by decide)
      rw [e1] at hd
      cases t with
      | nil => cases hd
      | cons x t =>
        have ex : x = 58 := hd
        subst ex
        refine ⟨pre ++ [35, 58], ?_, R.colon (by rw [e, e1]) hpos⟩
        rw [e, e1]
        simp
    · trivial
  | quote =>
    show Fine text Pos old (pQuote rec p)
    unfold pQuote
    refine Fine.ite (fun hc => Fine.adv R (h.push _) (by rw [push_r]; exact cn hc (by decide)) fun p1 h1 _ => ?_) fun _ => h
    have ho : Fine text Pos old (need true (orElse (rec .unq p1) (rec .expr p1)) fun d p2 => .ok (form "quote" d) (pop p2)) :=
      Fine.need (ue h1) fun _ _ h => Inv.pop h
    exact Fine.ite (fun _ => Fine.look (Fine.ite (fun _ => Fine.need (pChar_fine R h1) fun _ _ h => h) fun _ => ho)) fun _ => ho
  | quasi =>
    show Fine text Pos old (pQuasi rec p)
    unfold pQuasi
    exact Fine.ite (fun hc => Fine.adv R (h.push _) (by rw [push_r]; exact cn hc (by decide)) fun p1 h1 _ => Fine.need (ue h1) fun _ _ h => Inv.pop h)
      fun _ => h
  | unq =>
    show Fine text Pos old (pUnq rec p)
    unfold pUnq
    refine Fine.ite (fun hc => Fine.look (Fine.ite (fun hd => Fine.adv R h (take_two (by simpa using hc) (by simpa using hd) (by decide) (by decide))
      fun p1 h1 _ => Fine.need (hrec _ _ h1) fun _ _ h => h) fun _ => Fine.adv R h (cn hc (by decide)) fun p0 h0 _ => ?_)) fun _ => h
    have h1 := h0.skip R
    exact Fine.ite (fun _ => Fine.need (hrec _ _ h1) fun _ _ h => h) fun _ => Fine.ite (fun _ => Fine.need (hrec _ _ h1) fun _ _ h => h) fun _ =>
      Fine.need (hrec _ _ h1) fun _ _ h => h
  | list =>
    show Fine text Pos old (pList rec p)
    unfold pList
    refine Fine.ite (fun hc => Fine.adv R (h.push _) (by rw [push_r]; exact cn hc (by decide)) fun p0 h0 _ => ?_) fun _ => h
    have h1 := h0.skip R
    refine Fine.ite (fun hc => Fine.adv R h1 (cn hc (by decide)) fun p' h' _ => Fine.mark h h' _) fun _ => ?_
    have h2 := hrec .items _ h1
    cases hx : rec .items (skipWs p0) with
    | ok d p2 => rw [hx] at h2; exact Fine.mark h (Inv.pop h2) _
    | null p2 => rw [hx] at h2; exact h2
    | err p2 => rw [hx] at h2; exact h2
    | _ => trivial
  | items =>
    show Fine text Pos old (pItems rec p)
    unfold pItems
    refine Fine.ite (fun _ => close_fine R h) fun _ => Fine.need ((hrec _ _ h).orElse (ue h)) fun elem p1 h1 => ?_
    have h2 := h1.skip R
    unfold pDot
    have hn : Fine text Pos old (need false (rec .items (skipWs p1)) fun d p' => .ok (.pair elem d) p') := Fine.need (hrec _ _ h2) fun _ _ h => h
    exact Fine.ite (fun hc => Fine.look (Fine.ite (fun _ => hn) fun _ => Fine.adv R h2 (cn hc (by decide)) fun p3 h3 _ =>
      Fine.need (ue (h3.skip R)) fun d p4 h4 => close_fine R (h4.skip R))) fun _ => hn
  | vec =>
    show Fine text Pos old (pVec rec p)
    unfold pVec
    refine Fine.ite (fun hc => Fine.look (Fine.ite (fun hd => Fine.adv R (h.push _) ?_ fun p0 h0 _ => ?_) fun _ => h)) fun _ => h
    · rw [push_r]
      exact take_two (by simpa using hc) (by simpa using hd) (by decide) (by decide)
    · have h1 := h0.skip R
      exact Fine.ite (fun hc => Fine.adv R h1 (cn hc (by decide)) fun p' h' _ => Fine.mark h (Inv.pop h') _) fun _ =>
        Fine.need (hrec _ _ h1) fun _ _ h' => Fine.mark h h' _
  | elems =>
    show Fine text Pos old (pElems rec p)
    unfold pElems
    exact Fine.ite (fun _ => close_fine R h) fun _ => Fine.need (ue h) fun elem p1 h1 => Fine.need (hrec _ _ (h1.skip R)) fun _ _ h => h

theorem rd_fine (R : Rules text Pos) (n : Nat) : ∀ (j : Job) (p : P), Inv text Pos old p → Fine text Pos old (rd F n j p) := by
  induction n with
  | zero => intro j p _; trivial
  | succ n ih => intro j p h; exact step_fine R ih j h

end
end Pscm.Rp
