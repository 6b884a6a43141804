import Verif.RdStack
/-!
# C126: the parse stack
-/
namespace Pscm.Rp
open Rd

variable {F : FloIO} {text : Bytes}

/-! ## Specification -/

/-- How deep the lists of a datum are nested (1), and those of the elements of a list (2). -/
def nest2 : D → Nat × Nat
  | .pair a d => (1 + max (nest2 a).1 (nest2 d).2, max (nest2 a).1 (nest2 d).2)
  | .dot d => ((nest2 d).1, (nest2 d).1)
  | _ => (0, 0)

/-- The nesting of lists: an atom has 0, `(a (b))` has 2; `'x` is the list `(quote x)`. -/
def nest (d : D) : Nat := (nest2 d).1

example : nest (.pair (.sym [97]) (.pair (.pair (.sym [98]) .nil) .nil)) = 2 := by decide

/-! ## Leaves -/

def Same (p : P) (q : Q) : Prop := ∀ d p', q = .ok d p' → p'.stk = p.stk

theorem Same.ite {p : P} {c : Prop} [Decidable c] {a b : Q} (h1 : Same p a) (h2 : Same p b) : Same p (if c then a else b) := by split <;> assumption
theorem Same.look {p p1 : P} {k : Nat} {f : UInt8 → Q} (h : ∀ c, Same p (f c)) : Same p (look p1 k f) := by
  unfold Rp.look
  split
  · exact h _
  · intro d p' h; cases h
theorem Same.adv {p p1 : P} {k : Nat} {f : P → Q} (hl : p1.stk = p.stk) (h : ∀ p', p'.stk = p.stk → Same p (f p')) : Same p (adv p1 k f) := by
  unfold Rp.adv
  split
  · exact h _ hl
  · intro d p' h; cases h
theorem Same.mark {p p0 p1 : P} (hl : p1.stk = p.stk) (d : D) : Same p (mark p0 d p1) := by
  intro d' p' h
  cases h
  exact hl
theorem Same.null {p p1 : P} : Same p (.null p1) := fun d p' h => by cases h
theorem Same.err {p p1 : P} : Same p (.err p1) := fun d p' h => by cases h
theorem Same.ub {p : P} : Same p .ub := fun d p' h => by cases h
theorem Same.orElse {p : P} {x y : Q} (h1 : Same p x) (h2 : Same p y) : Same p (orElse x y) := by cases x <;> first | exact h2 | exact h1

theorem pExp_same {p p0 p1 : P} {neg n frac} (h : p1.stk = p.stk) : Same p (pExp F p0 neg n frac p1) := by
  unfold pExp
  refine Same.adv h fun p1 h1 => Same.adv h1 fun p2 h2 => Same.ite ?_ Same.err
  split
  · exact Same.ub
  · exact Same.mark (p1 := over isDigit p2) h2 _

theorem pTail_same {p p0 p1 : P} {neg n frac} (h : p1.stk = p.stk) : Same p (pTail F p0 neg n frac p1) := by
  unfold pTail
  refine Same.ite (pExp_same h) ?_
  split <;> exact Same.mark h _

theorem pDigits_same {p p0 p1 : P} {neg} (h : p1.stk = p.stk) : Same p (pDigits F p0 neg p1) := by
  unfold pDigits
  split
  · exact Same.ub
  · exact Same.ite (Same.adv (p1 := over isDigit p1) h fun p2 h2 => pTail_same (p1 := over isDigit p2) h2) (pTail_same (p1 := over isDigit p1) h)

theorem pNumber_same {p : P} : Same p (pNumber F p) := by
  unfold pNumber
  exact Same.ite (Same.look fun _ => Same.ite (Same.adv rfl fun _ h => pDigits_same h) Same.null)
    (Same.ite (Same.look fun _ => Same.ite (Same.adv rfl fun _ h => pDigits_same h) Same.null) (Same.ite (pDigits_same rfl) Same.null))

theorem pChar_same {p : P} : Same p (pChar p) := by
  unfold pChar
  refine Same.ite (Same.look fun _ => Same.ite (Same.adv rfl fun p1 h1 => ?_) Same.null) Same.null
  have ha : ∀ d, Same p (adv p1 1 (mark p d)) := fun d => Same.adv h1 fun p2 h2 => Same.mark h2 d
  refine Same.ite Same.err (Same.ite (ha _) (Same.ite ?_ (ha _)))
  split
  · exact Same.mark (p1 := over isAlpha p1) h1 _
  · exact ha _

theorem Same.litEnd {p p1 : P} {a b : UInt8} {y n : Q} (hy : Same p y) (hn : Same p n) : Same p (litEnd a b p1 y n) := by
  unfold Rp.litEnd
  exact Same.ite (Same.look fun _ => Same.ite (Same.look fun _ => Same.ite hy hn) hn) hn

theorem pSymbol_same {p : P} : Same p (pSymbol p) := by
  unfold pSymbol
  have hb : ∀ d, Same p (adv p 2 (mark p d)) := fun d => Same.adv rfl fun p2 h => Same.mark h d
  exact Same.litEnd (hb _) (Same.litEnd (hb _) (Same.ite Same.null (by
    apply Same.mark
    rfl)))

theorem pBrace_same {p : P} : Same p (pBrace p) := by
  unfold pBrace
  refine Same.adv rfl fun p1 h1 => ?_
  dsimp only
  split
  · exact Same.err
  · refine Same.ite ?_ Same.err
    apply Same.adv
    · exact h1
    · exact fun p2 h2 => Same.mark h2 _

theorem pAtom_same {p : P} : Same p (pAtom F p) := by
  unfold pAtom
  have h1 : Same p (orElse (pNumber F p) (orElse (pSymbol p) (.err p))) := pNumber_same.orElse (pSymbol_same.orElse Same.err)
  have h2 := Same.orElse pSymbol_same h1
  exact Same.litEnd h2 (Same.litEnd h2 h1)

/-! ## Compound data -/

theorem look_ok {p0 : P} {k : Nat} {f : UInt8 → Q} {d : D} {p : P} (h : look p0 k f = .ok d p) : f (p0.r.getD k 0) = .ok d p := by
  unfold look at h
  split at h
  · exact h
  · cases h

theorem push_room {k : Kind} {p : P} (h : p.stk.length < 50) : (push k p).stk.tail = p.stk ∧ (push k p).stk.length = p.stk.length + 1 := by
  unfold push
  rw [if_neg (by omega)]
  exact ⟨rfl, rfl⟩

theorem close_ok {b : Bool} {x d : D} {p p' : P} (h : close b x p = .ok d p') : d = x ∧ p'.stk = p.stk := by
  unfold close at h
  split at h
  · obtain ⟨p1, e1, _, h⟩ := adv_ok h
    cases h
    exact ⟨rfl, e1⟩
  · cases h

theorem items_pair {n : Nat} {p p' : P} {d : D} (h : rd F n .items p = .ok d p') (h41 : cur p.r ≠ 41) : ∃ a b, d = .pair a b := by
  cases n with
  | zero => cases h
  | succ n =>
    change pItems (rd F n) p = _ at h
    unfold pItems at h
    split at h
    · unfold close at h
      rw [if_neg (by simpa using h41)] at h
      cases h
    · obtain ⟨elem, p1, e1, h⟩ := need_ok h
      unfold pDot at h
      dsimp only at h
      have next : (need false (rd F n .items (skipWs p1)) fun d p' => .ok (.pair elem d) p') = .ok d p' → ∃ a b, d = .pair a b := by
        intro h
        obtain ⟨d2, p2, e2, h⟩ := need_ok h
        cases h
        exact ⟨_, _, rfl⟩
      split at h
      · have h := look_ok h
        split at h
        · exact next h
        · obtain ⟨p3, e3, r3, h⟩ := adv_ok h
          obtain ⟨d2, p4, e4, h⟩ := need_ok h
          obtain ⟨rfl, e5⟩ := close_ok h
          exact ⟨_, _, rfl⟩
      · exact next h

theorem rd_bal (he : NoEmptyList text) (hv : NoVector text) (hc : NoQuotedChar text) (hs : 34 ∉ text) (n : Nat) :
    ∀ (j : Job) (p : P) (d : D) (p' : P), p.r <:+ text → j ≠ .elems → rd F n j p = .ok d p' →
      p.stk.length + (if j = .items then (nest2 d).2 else nest d) ≤ 50 → p'.stk = p.stk := by
  induction n with
  | zero => intro j p d p' _ _ h; cases h
  | succ n ih =>
    intro j p d p' hp hj h hr
    have suf : ∀ {j : Job} {p p' : P} {d : D}, rd F n j p = .ok d p' → p.r <:+ text → p'.r <:+ text := fun e h => (suffix_of_ok e).trans h
    have ue : ∀ {p p' : P} {d : D}, orElse (rd F n .unq p) (rd F n .expr p) = .ok d p' → p.r <:+ text → p.stk.length + nest d ≤ 50 → p'.stk = p.stk := by
      intro p p' d e hp hr
      rcases orElse_ok e with e | e <;> exact ih _ _ _ _ hp (by simp) e (by simpa using hr)
    have ueS : ∀ {p p' : P} {d : D}, orElse (rd F n .unq p) (rd F n .expr p) = .ok d p' → p.r <:+ text → p'.r <:+ text :=
      fun e h => (orElse_ok e).elim (fun e => suf e h) fun e => suf e h
    have hform : ∀ s d, nest (form s d) = 1 + nest d := by
      intro s d
      simp [form, nest, nest2]
    cases j with
    | expr =>
      have h1 := suffix_skip hp
      rw [if_neg (by simp)] at hr
      rw [← skip_stk p] at hr ⊢
      change pExpr F (rd F n) p = _ at h
      unfold pExpr at h
      dsimp only at h
      split at h
      · cases h
      split at h
      · exact ih _ _ _ _ h1 (by simp) h (by simpa using hr)
      split at h
      · exact ih _ _ _ _ h1 (by simp) h (by simpa using hr)
      split at h
      · exact ih _ _ _ _ h1 (by simp) h (by simpa using hr)
      split at h
      · rename_i h34
        obtain ⟨t, et⟩ := cur_beq h34 (by decide)
        exact absurd (h1.mem (by rw [et]; simp)) hs
      have plain : orElse (pChar (skipWs p)) (orElse (rd F n .vec (skipWs p)) (pAtom F (skipWs p))) = .ok d p' → p'.stk = (skipWs p).stk := by
        intro h
        rcases orElse_ok h with h | h
        · exact pChar_same _ _ h
        · rcases orElse_ok h with h | h
          · exact ih _ _ _ _ h1 (by simp) h (by simpa using hr)
          · exact pAtom_same _ _ h
      unfold pHash at h
      split at h
      · have h := look_ok h
        split at h
        · obtain ⟨p1, e1, _, h⟩ := adv_ok h
          obtain ⟨d2, p2, e2, h⟩ := need_ok h
          cases h
          exact (pSymbol_same _ _ e2).trans e1
        · split at h
          · exact pBrace_same _ _ h
          · exact plain h
      · exact plain h
    | quote =>
      have hr : p.stk.length + nest d ≤ 50 := by simpa using hr
      change pQuote (rd F n) p = _ at h
      unfold pQuote at h
      split at h
      · rename_i h39
        obtain ⟨t, et⟩ := cur_beq h39 (by decide)
        obtain ⟨p1, e1, r1, h⟩ := adv_ok h
        have r1 : p1.r = t := by rw [r1, push_r, et]; rfl
        have hp1 : p1.r <:+ text := by rw [r1]; exact suffix_drop (k := 1) (by rw [← et]; exact hp : (39 :: t) <:+ text)
        have ho : (need true (orElse (rd F n .unq p1) (rd F n .expr p1)) fun d p2 => .ok (form "quote" d) (pop p2)) = .ok d p' → p'.stk = p.stk := by
          intro h
          obtain ⟨d2, p2, e2, h⟩ := need_ok h
          cases h
          rw [hform] at hr
          obtain ⟨t1, t2⟩ := push_room (k := .quote) (p := p) (by omega)
          have := ue e2 hp1 (by rw [e1, t2]; omega)
          show p2.stk.tail = _
          rw [this, e1, t1]
        split at h
        · rename_i h35
          have h := look_ok h
          split at h
          · rename_i h92
            rw [r1] at h35 h92
            obtain ⟨u, rfl⟩ := cur_beq h35 (by decide)
            obtain ⟨v, rfl⟩ : ∃ v, u = 92 :: v := by
              cases u with
              | nil => cases h92
              | cons x v => exact ⟨v, by have : x = 92 := by simpa using h92
                                         rw [this]⟩
            obtain ⟨pre, epre⟩ := hp
            exact absurd (by rw [← epre, et]) (hc pre v)
          · exact ho h
        · exact ho h
      · cases h
    | quasi =>
      have hr : p.stk.length + nest d ≤ 50 := by simpa using hr
      change pQuasi (rd F n) p = _ at h
      unfold pQuasi at h
      split at h
      · obtain ⟨p1, e1, r1, h⟩ := adv_ok h
        obtain ⟨d2, p2, e2, h⟩ := need_ok h
        cases h
        rw [hform] at hr
        obtain ⟨t1, t2⟩ := push_room (k := .quasiquote) (p := p) (by omega)
        have := ue e2 (by rw [r1, push_r]; exact suffix_drop hp) (by rw [e1, t2]; omega)
        show p2.stk.tail = _
        rw [this, e1, t1]
      · cases h
    | unq =>
      have hr : p.stk.length + nest d ≤ 50 := by simpa using hr
      change pUnq (rd F n) p = _ at h
      unfold pUnq at h
      have fin : ∀ {j : Job} {p1 : P} {s : String}, j ≠ .elems → j ≠ .items → p1.r <:+ text → p1.stk = p.stk →
          (need false (rd F n j p1) fun d p2 => .ok (form s d) p2) = .ok d p' → p'.stk = p.stk := by
        intro j p1 s hj hi hp1 e1 h
        obtain ⟨d2, p2, e2, h⟩ := need_ok h
        cases h
        rw [hform] at hr
        rw [ih _ _ _ _ hp1 hj e2 (by rw [if_neg hi, e1]; omega), e1]
      split at h
      · have h := look_ok h
        split at h
        · obtain ⟨p1, e1, r1, h⟩ := adv_ok h
          exact fin (by simp) (by simp) (by rw [r1]; exact suffix_drop hp) e1 h
        · obtain ⟨p1, e1, r1, h⟩ := adv_ok h
          have h2 : (skipWs p1).r <:+ text := suffix_skip (by rw [r1]; exact suffix_drop hp)
          dsimp only at h
          split at h
          · exact fin (p1 := skipWs p1) (by simp) (by simp) h2 e1 h
          · split at h
            · exact fin (p1 := skipWs p1) (by simp) (by simp) h2 e1 h
            · exact fin (p1 := skipWs p1) (by simp) (by simp) h2 e1 h
      · cases h
    | list =>
      have hr : p.stk.length + nest d ≤ 50 := by simpa using hr
      change pList (rd F n) p = _ at h
      unfold pList at h
      by_cases h40 : cur p.r == 40
      · rw [if_pos h40] at h
        obtain ⟨t, et⟩ := cur_beq h40 (by decide)
        have hno : cur (Rd.skipWs t) ≠ 41 := by
          obtain ⟨pre, epre⟩ := hp
          exact he pre t (by rw [← epre, et])
        obtain ⟨p0, e0, r0, h⟩ := adv_ok h
        have r0' : p0.r = t := by rw [r0, push_r, et]; rfl
        dsimp only at h
        rw [if_neg (by rw [skipWs_r, r0']; simpa using hno)] at h
        cases hi : rd F n .items (skipWs p0) with
        | ok d2 p2 =>
          rw [hi] at h
          cases h
          obtain ⟨a, b, rfl⟩ := items_pair hi (by rw [skipWs_r, r0']; exact hno)
          have hr' : p.stk.length + (1 + (nest2 (.pair a b)).2) ≤ 50 := hr
          obtain ⟨t1, t2⟩ := push_room (k := .list) (p := p) (by omega)
          have := ih _ _ _ _ (suffix_skip (by rw [r0, push_r]; exact suffix_drop hp)) (by simp) hi
            (by rw [if_pos rfl, skip_stk, e0, t2]; omega)
          show p2.stk.tail = _
          rw [this, skip_stk, e0, t1]
        | _ => rw [hi] at h; cases h
      · rw [if_neg h40] at h
        cases h
    | items =>
      have hr : p.stk.length + (nest2 d).2 ≤ 50 := by simpa using hr
      change pItems (rd F n) p = _ at h
      unfold pItems at h
      split at h
      · exact (close_ok h).2
      · obtain ⟨elem, p1, e1, h⟩ := need_ok h
        have hp1 : (skipWs p1).r <:+ text := suffix_skip ((orElse_ok e1).elim (fun e => suf e hp) fun e => ueS e hp)
        have hfirst : p.stk.length + nest elem ≤ 50 → p1.stk = p.stk := by
          intro hr
          rcases orElse_ok e1 with e | e
          · exact ih _ _ _ _ hp (by simp) e (by simpa using hr)
          · exact ue e hp hr
        unfold pDot at h
        have next : (need false (rd F n .items (skipWs p1)) fun d p' => .ok (.pair elem d) p') = .ok d p' → p'.stk = p.stk := by
          intro h
          obtain ⟨d2, p2, e2, h⟩ := need_ok h
          cases h
          have hr' : p.stk.length + max (nest elem) (nest2 d2).2 ≤ 50 := hr
          have e3 := hfirst (by omega)
          rw [ih _ _ _ _ hp1 (by simp) e2 (by rw [if_pos rfl, skip_stk, e3]; omega), skip_stk, e3]
        dsimp only at h
        split at h
        · have h := look_ok h
          split at h
          · exact next h
          · obtain ⟨p3, e3, r3, h⟩ := adv_ok h
            obtain ⟨d2, p4, e4, h⟩ := need_ok h
            obtain ⟨rfl, e5⟩ := close_ok h
            have hr' : p.stk.length + max (nest elem) (nest d2) ≤ 50 := hr
            have e6 := hfirst (by omega)
            have e7 : (skipWs p3).stk = p.stk := e3.trans e6
            have := ue e4 (suffix_skip (by rw [r3]; exact suffix_drop hp1)) (by rw [e7]; omega)
            rw [e5, skip_stk, this, e7]
        · exact next h
    | vec =>
      change pVec (rd F n) p = _ at h
      unfold pVec at h
      split at h
      · rename_i h35
        have h := look_ok h
        split at h
        · rename_i h40
          obtain ⟨t, et⟩ := cur_beq h35 (by decide)
          rw [et] at h40
          obtain ⟨u, rfl⟩ : ∃ u, t = 40 :: u := by
            cases t with
            | nil => cases h40
            | cons x u => exact ⟨u, by have : x = 40 := by simpa using h40
                                       rw [this]⟩
          obtain ⟨pre, epre⟩ := hp
          exact absurd (by rw [← epre, et]) (hv pre u)
        · cases h
      · cases h
    | elems => exact absurd rfl hj

/-! ## C126 -/

/-- After a text has been read, the parse stack is what it was before: if the text has no `"`, no vector, no `()` and no quoted character, and the lists of
the datum are not nested deeper than the 50 frames allow.  Missing: the other texts (`c126_leak`, `c126_popped_counterexample`). -/
theorem c126_balanced_partial (stk : List Frame) (text : Bytes) (he : NoEmptyList text) (hv : NoVector text) (hc : NoQuotedChar text) (hs : 34 ∉ text)
    (d : D) (p : P) (h : parse F stk text = .ok d p) (hd : stk.length + nest d ≤ 50) : p.stk = stk := by
  unfold parse at h
  split at h
  · rename_i d' p' e
    split at h
    · cases h
      exact rd_bal he hv hc hs _ .expr _ _ _ List.suffix_rfl (by simp) e (by simpa using hd)
    · cases h
  · cases h
  · rename_i h1 h2
    exact absurd h (h1 d p)

/-- `(a '(b . c))` -/
example : ∃ d p, parse Demo.F1 [] [40, 97, 32, 39, 40, 98, 32, 46, 32, 99, 41, 41] = .ok d p ∧ nest d = 3 ∧ p.stk = [] := by
  refine ⟨_, _, rfl, ?_, ?_⟩ <;> decide +kernel

theorem parseAll_stk (he : NoEmptyList text) (hv : NoVector text) (hc : NoQuotedChar text) (n : Nat) :
    ∀ p : P, p.r <:+ text → Stk F text p.stk (parseAll F n p) := by
  induction n with
  | zero => intro p _; trivial
  | succ n ih =>
    intro p hp
    rw [parseAll]
    have h1 := suffix_skip hp
    split
    · exact List.nil_suffix
    · have h2 : Stk F text (skipWs p).stk (parseExpr F (skipWs p)) := rd_stk he hv hc _ .expr _ h1 (by simp)
      split
      · rename_i d p1 e
        have h3 := ih (skipWs { p1 with stk := [] }) (suffix_skip ((suffix_of_ok (F := F) e).trans h1))
        have h4 : Stk F text p.stk (parseAll F n (skipWs { p1 with stk := [] })) := Stk.mono List.nil_suffix h3
        split
        · rename_i ds p2 e3
          rw [e3] at h4
          exact h4
        · exact h4
      · rename_i p1 e
        rw [e] at h2
        exact h2
      · exact h2

/-- The parse stack that an error prints: the frames that this text added are frames of constructs that start where the frame says and that the reader cannot
finish; the others were there before.  In texts without vectors, `()` and quoted characters.  Missing: the other texts
(`c126_finished_counterexample`), and that the innermost construct is shown (`c126_hidden_counterexample`). -/
theorem c126_unfinished_partial (stk : List Frame) (text : Bytes) (he : NoEmptyList text) (hv : NoVector text) (hc : NoQuotedChar text) (p : P)
    (h : parse F stk text = .err p ∨ ∃ n, parseAll F n { r := text, stk := stk } = .err p) :
    ∃ fs old, p.stk = fs ++ old ∧ old <:+ stk ∧ ∀ f ∈ fs, Unfinished F text f := by
  rcases h with h | ⟨n, h⟩
  · have hr : Stk F text stk (parseExpr F { r := text, stk := stk }) := rd_stk he hv hc _ .expr _ List.suffix_rfl (by simp)
    unfold parse at h
    split at h
    · rename_i d p1 e
      rw [e] at hr
      split at h
      · cases h
      · cases h
        exact ⟨[], p1.stk, rfl, hr, fun f hf => by cases hf⟩
    · rename_i p1 e
      rw [e] at hr
      cases h
      exact hr
    · rw [h] at hr
      exact hr
  · have := parseAll_stk (F := F) he hv hc n { r := text, stk := stk } List.suffix_rfl
    rw [h] at this
    exact this

/-- `(let (x` : the outer list is shown. -/
example : ∃ p, parse Demo.F1 [] [40, 108, 101, 116, 32, 40, 120] = .err p ∧ p.stk = [⟨.list, 1, 1, 7⟩] := by
  refine ⟨_, rfl, ?_⟩
  decide +kernel

/-- The text `()`. -/
def emptyList : Bytes := [40, 41]

/-- `k` texts read one after another by `parse`. -/
def stackAfter (F : FloIO) (s : Bytes) : Nat → List Frame
  | 0 => []
  | k + 1 => match parse F (stackAfter F s k) s with
    | .ok _ p | .null p | .err p => p.stk
    | _ => []

theorem parse_empty (stk : List Frame) : parse F stk emptyList = .ok .nil
    { r := [], line := 1, col := 3, log := [⟨.nil, 2, 1, 1⟩], stk := if stk.length ≥ 50 then stk else ⟨.list, 1, 1, 2⟩ :: stk } := by
  have hp : ∀ p : P, p = { r := emptyList, stk := stk } → (push .list p) = { p with stk := if stk.length ≥ 50 then stk else ⟨.list, 1, 1, 2⟩ :: stk } := by
    rintro p rfl
    unfold push
    dsimp only
    split <;> rfl
  unfold parse parseExpr
  have e : rd F (depth emptyList) .expr { r := emptyList, stk := stk } = .ok .nil
      { r := [], line := 1, col := 3, log := [⟨.nil, 2, 1, 1⟩], stk := if stk.length ≥ 50 then stk else ⟨.list, 1, 1, 2⟩ :: stk } := by
    show pList (rd F 10) { r := emptyList, stk := stk } = _
    unfold pList
    rw [if_pos (by rfl), hp _ rfl]
    rfl
  rw [e]
  rfl

/-- Every `()` read by `parse` leaves its frame: after `k` of them the stack has `min k 50` frames, although every one of them was finished; and when there are
50, a new construct gets no frame at all. -/
theorem c126_leak (k : Nat) : (stackAfter F emptyList k).length = min k 50 := by
  induction k with
  | zero => rfl
  | succ k ih =>
    rw [stackAfter, parse_empty]
    dsimp only
    split
    · omega
    · rw [List.length_cons]
      omega

/-- `(a` : the list is unfinished, but the report says that the parse stack is empty. -/
theorem c126_hidden_counterexample : ∃ p, parse Demo.F1 [] [40, 97] = .err p ∧ p.stk = [] ∧ Unfinished Demo.F1 [40, 97] ⟨.list, 1, 1, 2⟩ := by
  refine ⟨_, rfl, by decide +kernel, [40, 97], List.suffix_rfl, rfl, rfl, ?_⟩
  have e : Rd.parseExpr Demo.F1 [40, 97] = .err := by decide +kernel
  intro d r h
  rw [e] at h
  cases h

/-- `(a () () b` : the report shows the first `()`, which is finished. -/
theorem c126_finished_counterexample : ∃ p, parse Demo.F1 [] [40, 97, 32, 40, 41, 32, 40, 41, 32, 98] = .err p ∧
    p.stk = [⟨.list, 1, 4, 7⟩, ⟨.list, 1, 1, 10⟩] ∧ ∃ r, Rd.parseExpr Demo.F1 [40, 41, 32, 40, 41, 32, 98] = .ok .nil r := by
  refine ⟨_, rfl, by decide +kernel, _, rfl⟩

/-- `((a "s" b` : a string pops two frames, so that neither of the two lists is shown. -/
theorem c126_popped_counterexample : ∃ p, parse Demo.F1 [] [40, 40, 97, 32, 34, 115, 34, 32, 98] = .err p ∧ p.stk = [] := by
  refine ⟨_, rfl, by decide +kernel⟩

/-- Frames outlive their text: an error in `((a` leaves a frame, and the report of a later error in the text `(b` follows its pointer out of the buffer. -/
theorem c126_stale_counterexample : ∃ p p', parse Demo.F1 [] [40, 40, 97] = .err p ∧ parse Demo.F1 p.stk [40, 98] = .err p' ∧
    p'.stk = [⟨.list, 1, 1, 3⟩] ∧ report (asc "<input>") [40, 98] [] [] p' = none := by
  refine ⟨_, _, rfl, rfl, by decide +kernel, by decide +kernel⟩

end Pscm.Rp
