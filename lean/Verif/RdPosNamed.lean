import Verif.RdPosErase
import Verif.ReaderRound
/-!
# Positions: what is read at a recorded position
-/
namespace Pscm.Rp
open Rd

variable {F : FloIO} {text : Bytes}

/-- The datum is what the reader reads at the rest `suf` of the text, or it is the name of a keyword there. -/
def Named (F : FloIO) (text suf : Bytes) (d : D) : Prop :=
  ∃ pre, text = pre ++ suf ∧ ((∃ r', Rd.parseExpr F suf = .ok d r') ∨ ((∃ pre', pre = pre' ++ [35, 58]) ∧ ∃ r', Rd.pSymbol suf = .ok d r'))

structure Nam (F : FloIO) (text : Bytes) (p : P) : Prop where
  here : p.r <:+ text
  log : ∀ m ∈ p.log, ∃ suf, suf.length = m.left ∧ Named F text suf m.datum

def OkN (F : FloIO) (text : Bytes) (q : Q) : Prop := ∀ d p, q = .ok d p → Nam F text p

/-- A leaf of the reader records its datum at the place where it started, and nothing else. -/
def Only (p : P) (q : Q) : Prop := ∀ d p', q = .ok d p' → p'.log = ⟨d, p.r.length, p.line, p.col⟩ :: p.log ∧ p'.r <:+ p.r

/-! ## Leaves -/

theorem Only.ite {p : P} {c : Prop} [Decidable c] {a b : Q} (h1 : Only p a) (h2 : Only p b) : Only p (if c then a else b) := by split <;> assumption

theorem Only.look {p p1 : P} {k : Nat} {f : UInt8 → Q} (h : ∀ c, Only p (f c)) : Only p (look p1 k f) := by
  unfold Rp.look
  split
  · exact h _
  · intro d p' h; cases h

theorem Only.adv {p p1 : P} {k : Nat} {f : P → Q} (hl : p1.log = p.log) (hr : p1.r <:+ p.r)
    (h : ∀ p', p'.log = p.log → p'.r <:+ p.r → Only p (f p')) : Only p (adv p1 k f) := by
  unfold Rp.adv
  split
  · exact h _ hl ((List.drop_suffix ..).trans hr)
  · intro d p' h; cases h

theorem Only.mark {p p1 : P} (hl : p1.log = p.log) (hr : p1.r <:+ p.r) (d : D) : Only p (mark p d p1) := by
  intro d' p' h
  cases h
  exact ⟨by simp [hl], hr⟩

theorem Only.null {p p1 : P} : Only p (.null p1) := fun d p' h => by cases h
theorem Only.err {p p1 : P} : Only p (.err p1) := fun d p' h => by cases h
theorem Only.ub {p : P} : Only p .ub := fun d p' h => by cases h

theorem Only.orElse {p : P} {x y : Q} (h1 : Only p x) (h2 : Only p y) : Only p (orElse x y) := by
  cases x <;> first | exact h2 | exact h1

theorem pExp_only {p0 p : P} {neg n frac} (hl : p.log = p0.log) (hr : p.r <:+ p0.r) : Only p0 (pExp F p0 neg n frac p) := by
  unfold pExp
  refine Only.adv hl hr fun p1 l1 r1 => Only.adv l1 r1 fun p2 l2 r2 => Only.ite ?_ Only.err
  split
  · exact Only.ub
  · exact Only.mark (p1 := over isDigit p2) l2 ((List.dropWhile_suffix _).trans r2) _

theorem pTail_only {p0 p : P} {neg n frac} (hl : p.log = p0.log) (hr : p.r <:+ p0.r) : Only p0 (pTail F p0 neg n frac p) := by
  unfold pTail
  refine Only.ite (pExp_only hl hr) ?_
  split <;> exact Only.mark hl hr _

theorem pDigits_only {p0 p : P} {neg} (hl : p.log = p0.log) (hr : p.r <:+ p0.r) : Only p0 (pDigits F p0 neg p) := by
  unfold pDigits
  split
  · exact Only.ub
  · have h1 : (over isDigit p).r <:+ p0.r := (List.dropWhile_suffix _).trans hr
    refine Only.ite (Only.adv (p1 := over isDigit p) hl h1 fun p2 l2 r2 => pTail_only (p := over isDigit p2) l2 ((List.dropWhile_suffix _).trans r2))
      (pTail_only (p := over isDigit p) hl h1)

theorem pNumber_only {p : P} : Only p (pNumber F p) := by
  unfold pNumber
  exact Only.ite (Only.look fun _ => Only.ite (Only.adv rfl List.suffix_rfl fun _ l r => pDigits_only l r) Only.null)
    (Only.ite (Only.look fun _ => Only.ite (Only.adv rfl List.suffix_rfl fun _ l r => pDigits_only l r) Only.null)
      (Only.ite (pDigits_only rfl List.suffix_rfl) Only.null))

theorem pChar_only {p : P} : Only p (pChar p) := by
  unfold pChar
  refine Only.ite (Only.look fun _ => Only.ite (Only.adv rfl List.suffix_rfl fun p1 l1 r1 => ?_) Only.null) Only.null
  have ha : ∀ d, Only p (adv p1 1 (mark p d)) := fun d => Only.adv l1 r1 fun p2 l2 r2 => Only.mark l2 r2 d
  refine Only.ite Only.err (Only.ite (ha _) (Only.ite ?_ (ha _)))
  split
  · exact Only.mark (p1 := over isAlpha p1) l1 ((List.dropWhile_suffix _).trans r1) _
  · exact ha _

theorem push_log (k : Kind) (p : P) : (push k p).log = p.log := by unfold push; split <;> rfl

theorem pString_only {p : P} : Only p (pString p) := by
  unfold pString
  refine Only.adv (push_log ..) (by rw [push_r]; exact List.suffix_rfl) fun p1 l1 r1 => ?_
  dsimp only
  split
  · exact Only.err
  · rename_i raw r2 hs
    apply Only.mark
    · exact l1
    · exact (scanStr_suffix _ _ _ _ hs).trans r1

theorem Only.litEnd {p p1 : P} {a b : UInt8} {y n : Q} (hy : Only p y) (hn : Only p n) : Only p (litEnd a b p1 y n) := by
  unfold Rp.litEnd
  exact Only.ite (Only.look fun _ => Only.ite (Only.look fun _ => Only.ite hy hn) hn) hn

theorem pSymbol_only {p : P} : Only p (pSymbol p) := by
  unfold pSymbol
  have hb : ∀ d, Only p (adv p 2 (mark p d)) := fun d => Only.adv rfl List.suffix_rfl fun p2 l2 r2 => Only.mark l2 r2 d
  exact Only.litEnd (hb _) (Only.litEnd (hb _) (Only.ite Only.null (by
    apply Only.mark
    · rfl
    · exact (scanSym_suffix p.r).1)))

theorem pBrace_only {p : P} : Only p (pBrace p) := by
  unfold pBrace
  refine Only.adv rfl List.suffix_rfl fun p1 l1 r1 => ?_
  dsimp only
  split
  · exact Only.err
  · rename_i name r2 hs
    refine Only.ite ?_ Only.err
    apply Only.adv
    · exact l1
    · exact (scanBrace_suffix _ _ _ _ hs).trans r1
    · exact fun p2 l2 r2 => Only.mark l2 r2 _

theorem pAtom_only {p : P} : Only p (pAtom F p) := by
  unfold pAtom
  have h1 : Only p (orElse (pNumber F p) (orElse (pSymbol p) (.err p))) := pNumber_only.orElse (pSymbol_only.orElse Only.err)
  have h2 := Only.orElse pSymbol_only h1
  exact Only.litEnd h2 (Only.litEnd h2 h1)

/-! ## Reading at a place -/

theorem lim_of_ok {n : Nat} {j : Job} {p : P} {d : D} {p' : P} (h : rd F n j p = .ok d p') : lim F j p.r = .ok d p'.r := by
  have e := erase_rd (F := F) n j p
  rw [h] at e
  exact (rd_lim (F := F) (n := n) (j := j) (r := p.r)).resolve_left (by rw [← e]; exact fun h => by cases h) |>.symm.trans e.symm

theorem suffix_of_ok {n : Nat} {j : Job} {p : P} {d : D} {p' : P} (h : rd F n j p = .ok d p') : p'.r <:+ p.r := by
  have e := lim_of_ok h
  have g : Good p.r (lim F j p.r) := rd_good _ _ _ (Nat.le_refl _)
  rw [e] at g
  exact g.1

theorem lim_expr_skip (r : Bytes) : lim F .expr (Rd.skipWs r) = lim F .expr r := by
  rw [lim_eq, lim_eq (r := r)]
  show Rd.pExpr F _ _ = Rd.pExpr F _ _
  unfold Rd.pExpr
  rw [skipWs_skip]

/-! ## Combinators -/

theorem OkN.ite {c : Prop} [Decidable c] {a b : Q} (h1 : c → OkN F text a) (h2 : ¬ c → OkN F text b) : OkN F text (if c then a else b) := by
  split
  · exact h1 ‹_›
  · exact h2 ‹_›

theorem OkN.look {p : P} {k : Nat} {f : UInt8 → Q} (h : OkN F text (f (p.r.getD k 0))) : OkN F text (look p k f) := by
  unfold Rp.look
  split
  · exact h
  · intro d p h; cases h

theorem OkN.adv {p : P} {k : Nat} {f : P → Q} (hp : Nam F text p) (h : ∀ p', Nam F text p' → p'.r = p.r.drop k → OkN F text (f p')) :
    OkN F text (adv p k f) := by
  unfold Rp.adv
  split
  · exact h _ ⟨(List.drop_suffix ..).trans hp.here, hp.log⟩ rfl
  · intro d p h; cases h

theorem OkN.need {b : Bool} {x : Q} {f : D → P → Q} (hx : OkN F text x) (hf : ∀ d p, x = .ok d p → Nam F text p → OkN F text (f d p)) :
    OkN F text (need b x f) := by
  cases x with
  | ok d p => exact hf d p rfl (hx d p rfl)
  | _ => intro d p h; cases h

theorem OkN.orElse {x y : Q} (hx : OkN F text x) (hy : OkN F text y) : OkN F text (orElse x y) := by
  cases x <;> first | exact hy | exact hx

theorem OkN.null {p : P} : OkN F text (.null p) := fun d p' h => by cases h
theorem OkN.err {p : P} : OkN F text (.err p) := fun d p' h => by cases h
theorem OkN.ok {p : P} {d : D} (h : Nam F text p) : OkN F text (.ok d p) := fun d' p' e => by cases e; exact h

theorem Nam.push {p : P} (h : Nam F text p) (k : Kind) : Nam F text (push k p) := ⟨by rw [push_r]; exact h.here, by rw [push_log]; exact h.log⟩
theorem Nam.pop {p : P} (h : Nam F text p) : Nam F text (pop p) := ⟨h.here, h.log⟩
theorem Nam.skip {p : P} (h : Nam F text p) : Nam F text (skipWs p) := ⟨by rw [skipWs_r]; exact (skipWs_suffix _).trans h.here, h.log⟩

theorem OkN.close {p : P} {b : Bool} {x : D} (h : Nam F text p) : OkN F text (close b x p) := by
  unfold Rp.close
  exact OkN.ite (fun _ => OkN.adv h fun _ h _ => OkN.ok h) fun _ => OkN.err

/-- A datum recorded where the reader reads it. -/
theorem OkN.mark {p0 p1 : P} {d : D} (h0 : p0.r <:+ text) (h1 : Nam F text p1) (hr : ∃ r', Rd.parseExpr F p0.r = .ok d r') : OkN F text (mark p0 d p1) := by
  intro d' p' e
  cases e
  refine ⟨h1.here, fun m hm => ?_⟩
  rcases List.mem_cons.1 hm with rfl | hm
  · obtain ⟨pre, e⟩ := h0
    exact ⟨p0.r, rfl, pre, e.symm, .inl hr⟩
  · exact h1.log m hm

/-- A leaf whose result is what the reader reads at its start. -/
theorem OkN.leaf {p : P} {q : Q} (hp : Nam F text p) (ho : Only p q) (hr : ∀ d p', q = .ok d p' → Named F text p.r d) : OkN F text q := by
  intro d p' e
  obtain ⟨hl, hs⟩ := ho d p' e
  refine ⟨hs.trans hp.here, fun m hm => ?_⟩
  rw [hl] at hm
  rcases List.mem_cons.1 hm with rfl | hm
  · exact ⟨p.r, rfl, hr d p' e⟩
  · exact hp.log m hm

theorem named_of {p : P} {d : D} {r' : Bytes} (hp : Nam F text p) (h : lim F .expr p.r = .ok d r') : Named F text p.r d := by
  obtain ⟨pre, e⟩ := hp.here
  exact ⟨pre, e.symm, .inl ⟨r', by rw [parseExpr_lim]; exact h⟩⟩

theorem skipWs_of {r : Bytes} (h1 : isSpace (cur r) = false) (h2 : cur r ≠ 59) : Rd.skipWs r = r := by
  cases r with
  | nil => rfl
  | cons c t =>
    have h1 : isSpace c = false := h1
    have h2 : c ≠ 59 := h2
    show skip false (c :: t) = _
    rw [skip]
    simp [h1, h2]

/-- Where a character follows `#\`, the reader reads a character. -/
theorem lim_char {r : Bytes} (h1 : cur r = 35) (h2 : r.getD 1 0 = 92) (d : D) (r' : Bytes) (h : Rd.pChar r = .ok d r') : lim F .expr r = .ok d r' := by
  rw [lim_eq]
  show Rd.pExpr F _ r = _
  unfold Rd.pExpr
  have hs : Rd.skipWs r = r := skipWs_of (by rw [h1]; decide) (by rw [h1]; decide)
  have hl : 1 ≤ r.length := by cases r with | nil => cases h1 | cons => simp
  simp only [hs, h1, Rd.pHash, Rd.look, hl, h2, h, if_true]
  rfl

theorem lim_vec {r : Bytes} (h1 : cur r = 35) (h2 : r.getD 1 0 = 40) (d : D) (r' : Bytes) (h : lim F .vec r = .ok d r') : lim F .expr r = .ok d r' := by
  rw [lim_eq]
  show Rd.pExpr F _ r = _
  unfold Rd.pExpr
  have hs : Rd.skipWs r = r := skipWs_of (by rw [h1]; decide) (by rw [h1]; decide)
  have hl : 1 ≤ r.length := by cases r with | nil => cases h1 | cons => simp
  have hc : Rd.pChar r = .null r := by
    unfold Rd.pChar Rd.look
    rw [h1, if_pos (by decide), if_pos hl]
    simp only []
    rw [h2, if_neg (by decide)]
  simp only [hs, h1, Rd.pHash, Rd.look, hl, h2, h, hc, if_true]
  rfl

theorem lim_list {r : Bytes} (h1 : cur r = 40) (d : D) (r' : Bytes) (h : lim F .list r = .ok d r') : lim F .expr r = .ok d r' := by
  rw [lim_eq]
  show Rd.pExpr F _ r = _
  unfold Rd.pExpr
  have hs : Rd.skipWs r = r := skipWs_of (by rw [h1]; decide) (by rw [h1]; decide)
  simp only [hs, h1]
  exact h

/-! ## The induction -/

theorem rd_named (n : Nat) : ∀ (j : Job) (p : P), Nam F text p → OkN F text (rd F n j p) := by
  induction n with
  | zero => intro j p _ d p' h; cases h
  | succ n ih =>
    intro j p h
    have ue : ∀ {p : P}, Nam F text p → OkN F text (orElse (rd F n .unq p) (rd F n .expr p)) := fun h => (ih _ _ h).orElse (ih _ _ h)
    cases j with
    | expr =>
      have h1 := h.skip
      have key : ∀ (q : Q), rd F (n + 1) .expr p = q → Only (skipWs p) q → OkN F text q := by
        intro q hq ho
        refine OkN.leaf h1 ho fun d p' e => ?_
        have := lim_of_ok (hq.trans e)
        rw [← lim_expr_skip, ← skipWs_r] at this
        exact named_of h1 this
      have e : rd F (n + 1) .expr p = (if cur (skipWs p).r == 0 then .null (skipWs p)
          else if cur (skipWs p).r == 39 then rd F n .quote (skipWs p)
          else if cur (skipWs p).r == 96 then rd F n .quasi (skipWs p)
          else if cur (skipWs p).r == 40 then rd F n .list (skipWs p)
          else if cur (skipWs p).r == 34 then pString (skipWs p)
          else pHash F (rd F n) (skipWs p)) := rfl
      rw [e]
      by_cases c0 : cur (skipWs p).r == 0
      · rw [if_pos c0]; exact OkN.null
      rw [if_neg c0] at e ⊢
      by_cases c1 : cur (skipWs p).r == 39
      · rw [if_pos c1]; exact ih _ _ h1
      rw [if_neg c1] at e ⊢
      by_cases c2 : cur (skipWs p).r == 96
      · rw [if_pos c2]; exact ih _ _ h1
      rw [if_neg c2] at e ⊢
      by_cases c3 : cur (skipWs p).r == 40
      · rw [if_pos c3]; exact ih _ _ h1
      rw [if_neg c3] at e ⊢
      by_cases c4 : cur (skipWs p).r == 34
      · rw [if_pos c4] at e ⊢; exact key _ e pString_only
      rw [if_neg c4] at e ⊢
      have plain : pHash F (rd F n) (skipWs p) = orElse (pChar (skipWs p)) (orElse (rd F n .vec (skipWs p)) (pAtom F (skipWs p))) →
          OkN F text (pHash F (rd F n) (skipWs p)) := by
        intro e2
        have e3 := e.trans e2
        rw [e2]
        cases hc : pChar (skipWs p) with
        | ok d2 p2 =>
          rw [hc] at e3
          refine key _ e3 ?_
          show Only _ (.ok d2 p2)
          rw [← hc]
          exact pChar_only
        | null p2 =>
          rw [hc] at e3
          show OkN F text (orElse (rd F n .vec (skipWs p)) (pAtom F (skipWs p)))
          have e4 : rd F (n + 1) .expr p = orElse (rd F n .vec (skipWs p)) (pAtom F (skipWs p)) := e3
          cases hv : rd F n .vec (skipWs p) with
          | ok d p' => show OkN F text (.ok d p'); rw [← hv]; exact ih _ _ h1
          | null p3 =>
            rw [hv] at e4
            exact key _ e4 pAtom_only
          | _ => intro d p h; cases h
        | _ => intro d p h; cases h
      by_cases c5 : cur (skipWs p).r == 35
      · by_cases c6 : 1 ≤ (skipWs p).r.length
        · by_cases c7 : (skipWs p).r.getD 1 0 == 58
          · have e : pHash F (rd F n) (skipWs p) = adv (skipWs p) 2 fun p1 => need false (pSymbol { p1 with col := (skipWs p).col }) .ok := by
              unfold pHash look
              rw [if_pos c5, if_pos c6]
              simp only []
              rw [if_pos c7]
            rw [e]
            refine OkN.adv h1 fun p1 i1 e1 => OkN.need ?_ fun d p2 _ h2 => OkN.ok h2
            refine OkN.leaf (p := { p1 with col := (skipWs p).col }) ⟨i1.here, i1.log⟩ pSymbol_only fun d p' hs => ?_
            have hsym := erase_pSymbol (p := { p1 with col := (skipWs p).col })
            rw [hs] at hsym
            obtain ⟨pre, epre⟩ := h1.here
            obtain ⟨t, et⟩ := cur_beq c5 (by decide)
            rw [et] at c7
            have et2 : ∃ u, t = 58 :: u := by
              cases t with
              | nil => cases c7
              | cons x u => exact ⟨u, by have : x = 58 := by simpa using c7
                                         rw [this]⟩
            obtain ⟨u, rfl⟩ := et2
            refine ⟨pre ++ [35, 58], ?_, .inr ⟨⟨pre, rfl⟩, p'.r, hsym.symm⟩⟩
            show text = pre ++ [35, 58] ++ p1.r
            rw [e1, et, ← epre, et]
            simp
          · by_cases c8 : (skipWs p).r.getD 1 0 == 123
            · have e2 : pHash F (rd F n) (skipWs p) = pBrace (skipWs p) := by
                unfold pHash look
                rw [if_pos c5, if_pos c6]
                simp only []
                rw [if_neg c7, if_pos c8]
              rw [e2]
              exact key _ (e.trans e2) pBrace_only
            · refine plain ?_
              unfold pHash look
              rw [if_pos c5, if_pos c6]
              simp only []
              rw [if_neg c7, if_neg c8]
        · have e2 : pHash F (rd F n) (skipWs p) = .oob := by
            unfold pHash look
            rw [if_pos c5, if_neg c6]
          rw [e2]
          intro d p h
          cases h
      · refine plain ?_
        unfold pHash
        rw [if_neg c5]
    | quote =>
      show OkN F text (pQuote (rd F n) p)
      unfold pQuote
      refine OkN.ite (fun hc => OkN.adv (h.push _) fun p1 h1 _ => ?_) fun _ => OkN.null
      have ho : OkN F text (need true (orElse (rd F n .unq p1) (rd F n .expr p1)) fun d p2 => .ok (form "quote" d) (pop p2)) :=
        OkN.need (ue h1) fun _ _ _ h => OkN.ok h.pop
      refine OkN.ite (fun hc => OkN.look (OkN.ite (fun hd => OkN.need ?_ fun _ _ _ h => OkN.ok h) fun _ => ho)) fun _ => ho
      refine OkN.leaf h1 pChar_only fun d p' e => ?_
      have ec := erase_pChar (p := p1)
      rw [e] at ec
      exact named_of h1 (lim_char (by simpa using hc) (by simpa using hd) d p'.r ec.symm)
    | quasi =>
      show OkN F text (pQuasi (rd F n) p)
      unfold pQuasi
      exact OkN.ite (fun hc => OkN.adv (h.push _) fun p1 h1 _ => OkN.need (ue h1) fun _ _ _ h => OkN.ok h.pop) fun _ => OkN.null
    | unq =>
      show OkN F text (pUnq (rd F n) p)
      unfold pUnq
      refine OkN.ite (fun hc => OkN.look (OkN.ite (fun hd => OkN.adv h fun p1 h1 _ => OkN.need (ih _ _ h1) fun _ _ _ h => OkN.ok h) fun _ =>
        OkN.adv h fun p0 h0 _ => ?_)) fun _ => OkN.null
      have h1 := h0.skip
      exact OkN.ite (fun _ => OkN.need (ih _ _ h1) fun _ _ _ h => OkN.ok h) fun _ => OkN.ite (fun _ => OkN.need (ih _ _ h1) fun _ _ _ h => OkN.ok h)
        fun _ => OkN.need (ih _ _ h1) fun _ _ _ h => OkN.ok h
    | list =>
      have hlim : ∀ (d : D) (p' : P), cur p.r = 40 → rd F (n + 1) .list p = .ok d p' → ∃ r', Rd.parseExpr F p.r = .ok d r' := fun d p' hc e =>
        ⟨p'.r, by rw [parseExpr_lim]; exact lim_list hc d p'.r (lim_of_ok e)⟩
      rw [show rd F (n + 1) .list p = pList (rd F n) p from rfl] at *
      unfold pList at *
      by_cases hc : cur p.r == 40
      · rw [if_pos hc] at *
        have hc : cur p.r = 40 := by simpa using hc
        unfold adv at *
        by_cases hk : 1 ≤ (push .list p).r.length
        · rw [if_pos hk] at *
          have h0 : Nam F text { push .list p with r := (push .list p).r.drop 1, col := (push .list p).col + 1 } :=
            ⟨(List.drop_suffix ..).trans (h.push _).here, (h.push _).log⟩
          revert hlim h0
          generalize ({ push .list p with r := (push .list p).r.drop 1, col := (push .list p).col + 1 } : P) = p0
          intro hlim h0
          dsimp only at *
          have h1 := h0.skip
          by_cases hd : cur (skipWs p0).r == 41
          · rw [if_pos hd] at *
            by_cases hk : 1 ≤ (skipWs p0).r.length
            · rw [if_pos hk] at *
              exact OkN.mark h.here ⟨(List.drop_suffix ..).trans h1.here, h1.log⟩ (hlim _ _ hc rfl)
            · rw [if_neg hk]
              intro d p h; cases h
          · rw [if_neg hd] at *
            have hi := ih .items _ h1
            cases hv : rd F n .items (skipWs p0) with
            | ok d p2 =>
              rw [hv] at hlim hi
              exact OkN.mark h.here (hi _ _ rfl).pop (hlim _ _ hc rfl)
            | _ => intro d p h; cases h
        · rw [if_neg hk]
          intro d p h; cases h
      · rw [if_neg hc]; exact OkN.null
    | items =>
      show OkN F text (pItems (rd F n) p)
      unfold pItems
      refine OkN.ite (fun _ => OkN.close h) fun _ => OkN.need ((ih _ _ h).orElse (ue h)) fun elem p1 _ h1 => ?_
      unfold pDot
      have h2 := h1.skip
      have hn : OkN F text (need false (rd F n .items (skipWs p1)) fun d p' => .ok (.pair elem d) p') := OkN.need (ih _ _ h2) fun _ _ _ h => OkN.ok h
      exact OkN.ite (fun _ => OkN.look (OkN.ite (fun _ => hn) fun _ => OkN.adv h2 fun p3 h3 _ => OkN.need (ue h3.skip) fun _ _ _ h4 => OkN.close h4.skip)) fun _ => hn
    | vec =>
      have hlim : ∀ (d : D) (p' : P), cur p.r = 35 → p.r.getD 1 0 = 40 → rd F (n + 1) .vec p = .ok d p' → ∃ r', Rd.parseExpr F p.r = .ok d r' :=
        fun d p' hc hd e => ⟨p'.r, by rw [parseExpr_lim]; exact lim_vec hc hd d p'.r (lim_of_ok e)⟩
      rw [show rd F (n + 1) .vec p = pVec (rd F n) p from rfl] at *
      unfold pVec look at *
      by_cases hc : cur p.r == 35
      · rw [if_pos hc] at *
        have hc : cur p.r = 35 := by simpa using hc
        by_cases hk : 1 ≤ p.r.length
        · rw [if_pos hk] at *
          simp only at *
          by_cases hd : p.r.getD 1 0 == 40
          · rw [if_pos hd] at *
            have hd : p.r.getD 1 0 = 40 := by simpa using hd
            unfold adv at *
            by_cases hk : 2 ≤ (push .vector p).r.length
            · rw [if_pos hk] at *
              have h0 : Nam F text { push .vector p with r := (push .vector p).r.drop 2, col := (push .vector p).col + 2 } :=
                ⟨(List.drop_suffix ..).trans (h.push _).here, (h.push _).log⟩
              revert hlim h0
              generalize ({ push .vector p with r := (push .vector p).r.drop 2, col := (push .vector p).col + 2 } : P) = p0
              intro hlim h0
              dsimp only at *
              have h1 := h0.skip
              by_cases he : cur (skipWs p0).r == 41
              · rw [if_pos he] at *
                by_cases hk : 1 ≤ (skipWs p0).r.length
                · rw [if_pos hk] at *
                  exact OkN.mark h.here (Nam.pop ⟨(List.drop_suffix ..).trans h1.here, h1.log⟩) (hlim _ _ hc hd rfl)
                · rw [if_neg hk]
                  intro d p h; cases h
              · rw [if_neg he] at *
                have hi := ih .elems _ h1
                cases hv : rd F n .elems (skipWs p0) with
                | ok d p2 =>
                  rw [hv] at hlim hi
                  exact OkN.mark h.here (hi _ _ rfl) (hlim _ _ hc hd rfl)
                | _ => intro d p h; cases h
            · rw [if_neg hk]
              intro d p h; cases h
          · rw [if_neg hd]; exact OkN.null
        · rw [if_neg hk]
          intro d p h; cases h
      · rw [if_neg hc]; exact OkN.null
    | elems =>
      show OkN F text (pElems (rd F n) p)
      unfold pElems
      exact OkN.ite (fun _ => OkN.close h) fun _ => OkN.need (ue h) fun elem p1 _ h1 => OkN.need (ih _ _ h1.skip) fun _ _ _ h => OkN.ok h

end Pscm.Rp
