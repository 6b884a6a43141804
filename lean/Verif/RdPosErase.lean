import Verif.RdPos
/-!
# The reader with positions is the reader
-/
namespace Pscm.Rp
open Rd

/-- Forget the positions. -/
def erase : Q → R
  | .ok d p => .ok d p.r
  | .null p => .null p.r
  | .err _ => .err
  | .ub => .ub
  | .oob => .oob
  | .fuel => .fuel

theorem skipPos_fst : ∀ (r : Bytes) (b : Bool) (l c : Nat), (skipPos b r l c).1 = skip b r := by
  intro r
  induction r with
  | nil => intro b l c; cases b <;> rfl
  | cons x t ih =>
    intro b l c
    cases b with
    | true =>
      simp only [skipPos, skip, if_true]
      split
      · exact ih ..
      · split
        · rfl
        · exact ih ..
    | false =>
      simp only [skipPos, skip, Bool.false_eq_true, if_false]
      split
      · split <;> exact ih ..
      · split
        · exact ih ..
        · rfl

@[simp] theorem skipWs_r (p : P) : (skipWs p).r = Rd.skipWs p.r := skipPos_fst ..
@[simp] theorem push_r (k : Kind) (p : P) : (push k p).r = p.r := by unfold push; split <;> rfl
@[simp] theorem pop_r (p : P) : (pop p).r = p.r := rfl
@[simp] theorem over_r (c : UInt8 → Bool) (p : P) : (over c p).r = p.r.dropWhile c := rfl
@[simp] theorem erase_mark (p0 : P) (d : D) (p : P) : erase (mark p0 d p) = .ok d p.r := rfl
@[simp] theorem erase_ok (d : D) (p : P) : erase (.ok d p) = .ok d p.r := rfl
@[simp] theorem erase_null (p : P) : erase (.null p) = .null p.r := rfl
@[simp] theorem erase_err (p : P) : erase (.err p) = .err := rfl
@[simp] theorem erase_ub : erase .ub = .ub := rfl

theorem erase_adv {p : P} {k : Nat} {f : P → Q} {g : Bytes → R} (h : ∀ p', erase (f p') = g p'.r) : erase (adv p k f) = Rd.adv p.r k g := by
  unfold adv Rd.adv
  split
  · exact h _
  · rfl

theorem erase_look {p : P} {k : Nat} {f : UInt8 → Q} {g : UInt8 → R} (h : ∀ c, erase (f c) = g c) : erase (look p k f) = Rd.look p.r k g := by
  unfold look Rd.look
  split
  · exact h _
  · rfl

theorem erase_need {b : Bool} {x : Q} {y : R} {f : D → P → Q} {g : D → Bytes → R} (hx : erase x = y) (h : ∀ d p, erase (f d p) = g d p.r) :
    erase (need b x f) = Rd.need y g := by
  subst hx
  cases x <;> first | exact h .. | rfl

theorem erase_orElse {x : Q} {y : R} {f : Q} {g : R} (hx : erase x = y) (h : erase f = g) : erase (orElse x f) = Rd.orElse y g := by
  subst hx
  cases x <;> first | exact h | rfl

theorem erase_ite {c : Prop} [Decidable c] {a b : Q} {a' b' : R} (h1 : erase a = a') (h2 : erase b = b') :
    erase (if c then a else b) = if c then a' else b' := by split <;> assumption

theorem erase_litEnd {a b : UInt8} {p : P} {y n : Q} {y' n' : R} (h1 : erase y = y') (h2 : erase n = n') :
    erase (litEnd a b p y n) = Rd.litEnd a b p.r y' n' := by
  unfold litEnd Rd.litEnd
  exact erase_ite (erase_look fun _ => erase_ite (erase_look fun _ => erase_ite h1 h2) h2) h2

variable {F : FloIO}

theorem erase_pExp {p0 : P} {neg n frac} {p : P} : erase (pExp F p0 neg n frac p) = Rd.pExp F neg n frac p.r := by
  unfold pExp Rd.pExp
  refine erase_adv fun p1 => ?_
  refine erase_adv fun p2 => erase_ite ?_ rfl
  cases accum 0 (p2.r.takeWhile isDigit) <;> rfl

theorem erase_pTail {p0 : P} {neg n frac} {p : P} : erase (pTail F p0 neg n frac p) = Rd.pTail F neg n frac p.r := by
  unfold pTail Rd.pTail
  refine erase_ite erase_pExp ?_
  cases frac <;> rfl

theorem erase_pDigits {p0 : P} {neg} {p : P} : erase (pDigits F p0 neg p) = Rd.pDigits F neg p.r := by
  unfold pDigits Rd.pDigits
  cases accum 0 (p.r.takeWhile isDigit) with
  | none => rfl
  | some n => exact erase_ite (erase_adv fun _ => erase_pTail) erase_pTail

theorem erase_pNumber {p : P} : erase (pNumber F p) = Rd.pNumber F p.r := by
  unfold pNumber Rd.pNumber
  exact erase_ite (erase_look fun _ => erase_ite (erase_adv fun _ => erase_pDigits) rfl)
    (erase_ite (erase_look fun _ => erase_ite (erase_adv fun _ => erase_pDigits) rfl) (erase_ite erase_pDigits rfl))

theorem erase_pChar {p : P} : erase (pChar p) = Rd.pChar p.r := by
  unfold pChar Rd.pChar
  refine erase_ite (erase_look fun _ => erase_ite (erase_adv fun p1 => erase_ite rfl (erase_ite (erase_adv fun _ => rfl) (erase_ite ?_
    (erase_adv fun _ => rfl)))) rfl) rfl
  cases charName (p1.r.takeWhile isAlpha) with
  | none => exact erase_adv fun _ => rfl
  | some c => rfl

theorem erase_pString {p : P} : erase (pString p) = Rd.pString p.r := by
  have : Rd.pString p.r = Rd.pString (push .string p).r := by rw [push_r]
  rw [this]
  unfold pString Rd.pString
  refine erase_adv fun p1 => ?_
  dsimp only
  cases scanStr false p1.r <;> rfl

theorem erase_pSymbol {p : P} : erase (pSymbol p) = Rd.pSymbol p.r := by
  unfold pSymbol Rd.pSymbol
  exact erase_litEnd (erase_adv fun _ => rfl) (erase_litEnd (erase_adv fun _ => rfl) (erase_ite rfl rfl))

theorem erase_pBrace {p : P} : erase (pBrace p) = Rd.pBrace p.r := by
  unfold pBrace Rd.pBrace
  refine erase_adv fun p1 => ?_
  dsimp only
  cases scanBrace 0 p1.r with
  | none => rfl
  | some x => exact erase_ite (erase_adv fun _ => rfl) rfl

theorem erase_pAtom {p : P} : erase (pAtom F p) = Rd.pAtom F p.r := by
  unfold pAtom Rd.pAtom
  have h1 : erase (orElse (pNumber F p) (orElse (pSymbol p) (.err p))) = Rd.orElse (Rd.pNumber F p.r) (Rd.orElse (Rd.pSymbol p.r) .err) :=
    erase_orElse erase_pNumber (erase_orElse erase_pSymbol rfl)
  exact erase_litEnd (erase_orElse erase_pSymbol h1) (erase_litEnd (erase_orElse erase_pSymbol h1) h1)

theorem erase_close {b : Bool} {d : D} {p : P} : erase (close b d p) = Rd.close d p.r := by
  unfold close Rd.close
  exact erase_ite (erase_adv fun _ => rfl) rfl

variable {rec : Job → P → Q} {rec' : Job → Bytes → R}

theorem erase_unqExpr (h : ∀ j p, erase (rec j p) = rec' j p.r) (p : P) :
    erase (orElse (rec .unq p) (rec .expr p)) = Rd.orElse (rec' .unq p.r) (rec' .expr p.r) := erase_orElse (h _ _) (h _ _)

theorem erase_pQuote (h : ∀ j p, erase (rec j p) = rec' j p.r) {p : P} : erase (pQuote rec p) = Rd.pQuote rec' p.r := by
  unfold pQuote Rd.pQuote
  refine erase_ite ?_ rfl
  have := erase_adv (p := push .quote p) (k := 1) (f := fun p1 =>
    let other := need true (orElse (rec .unq p1) (rec .expr p1)) fun d p2 => .ok (form "quote" d) (pop p2)
    if cur p1.r == 35 then
      look p1 1 fun c => if c == 92 then need false (pChar p1) fun d p2 => .ok (form "quote" d) p2 else other
    else other) (g := fun r1 =>
    let other := Rd.need (Rd.orElse (rec' .unq r1) (rec' .expr r1)) fun d r2 => .ok (form "quote" d) r2
    if cur r1 == 35 then
      Rd.look r1 1 fun c => if c == 92 then Rd.need (Rd.pChar r1) fun d r2 => .ok (form "quote" d) r2 else other
    else other) (fun p1 => by
      have ho := erase_need (b := true) (f := fun d p2 => .ok (form "quote" d) (pop p2)) (g := fun d r2 => .ok (form "quote" d) r2)
        (erase_unqExpr h p1) (fun _ _ => rfl)
      exact erase_ite (erase_look fun _ => erase_ite (erase_need erase_pChar fun _ _ => rfl) ho) ho)
  rw [push_r] at this
  exact this

theorem erase_pQuasi (h : ∀ j p, erase (rec j p) = rec' j p.r) {p : P} : erase (pQuasi rec p) = Rd.pQuasi rec' p.r := by
  unfold pQuasi Rd.pQuasi
  refine erase_ite ?_ rfl
  rw [← push_r .quasiquote p]
  exact erase_adv fun p1 => erase_need (erase_unqExpr h p1) fun _ _ => rfl

theorem erase_pUnq (h : ∀ j p, erase (rec j p) = rec' j p.r) {p : P} : erase (pUnq rec p) = Rd.pUnq rec' p.r := by
  unfold pUnq Rd.pUnq
  refine erase_ite (erase_look fun c => erase_ite (erase_adv fun p1 => erase_need (h _ _) fun _ _ => rfl) (erase_adv fun p0 => ?_)) rfl
  dsimp only
  rw [← skipWs_r]
  exact erase_ite (erase_need (h _ _) fun _ _ => rfl) (erase_ite (erase_need (h _ _) fun _ _ => rfl) (erase_need (h _ _) fun _ _ => rfl))

theorem erase_pList (h : ∀ j p, erase (rec j p) = rec' j p.r) {p : P} : erase (pList rec p) = Rd.pList rec' p.r := by
  unfold pList Rd.pList
  refine erase_ite ?_ rfl
  rw [← push_r .list p]
  refine erase_adv fun p0 => ?_
  dsimp only
  rw [← skipWs_r]
  refine erase_ite (erase_adv fun _ => rfl) ?_
  rw [← h]
  cases rec .items (skipWs p0) <;> rfl

theorem erase_pDot (h : ∀ j p, erase (rec j p) = rec' j p.r) {e : D} {p : P} : erase (pDot rec e p) = Rd.pDot rec' e p.r := by
  unfold pDot Rd.pDot
  have hn := erase_need (b := false) (f := fun d p' => .ok (.pair e d) p') (g := fun d r' => .ok (.pair e d) r') (h .items p) (fun _ _ => rfl)
  refine erase_ite (erase_look fun c => erase_ite hn (erase_adv fun p1 => ?_)) hn
  rw [← skipWs_r]
  exact erase_need (erase_unqExpr h _) fun d p2 => by rw [← skipWs_r]; exact erase_close

theorem erase_pItems (h : ∀ j p, erase (rec j p) = rec' j p.r) {p : P} : erase (pItems rec p) = Rd.pItems rec' p.r := by
  unfold pItems Rd.pItems
  exact erase_ite erase_close (erase_need (erase_orElse (h _ _) (erase_unqExpr h p)) fun d p1 => by rw [← skipWs_r]; exact erase_pDot h)

theorem erase_pVec (h : ∀ j p, erase (rec j p) = rec' j p.r) {p : P} : erase (pVec rec p) = Rd.pVec rec' p.r := by
  unfold pVec Rd.pVec
  refine erase_ite (erase_look fun c => erase_ite ?_ rfl) rfl
  rw [← push_r .vector p]
  refine erase_adv fun p0 => ?_
  dsimp only
  rw [← skipWs_r]
  exact erase_ite (erase_adv fun _ => rfl) (erase_need (h _ _) fun _ _ => rfl)

theorem erase_pElems (h : ∀ j p, erase (rec j p) = rec' j p.r) {p : P} : erase (pElems rec p) = Rd.pElems rec' p.r := by
  unfold pElems Rd.pElems
  exact erase_ite erase_close (erase_need (erase_unqExpr h p) fun d p1 => by
    rw [← skipWs_r]
    exact erase_need (h _ _) fun _ _ => rfl)

theorem erase_pHash (h : ∀ j p, erase (rec j p) = rec' j p.r) {p : P} : erase (pHash F rec p) = Rd.pHash F rec' p.r := by
  unfold pHash Rd.pHash
  have hp := erase_orElse (erase_pChar (p := p)) (erase_orElse (h .vec p) (erase_pAtom (F := F) (p := p)))
  exact erase_ite (erase_look fun c => erase_ite (erase_adv fun p1 => erase_need erase_pSymbol fun _ _ => rfl) (erase_ite erase_pBrace hp)) hp

theorem erase_pExpr (h : ∀ j p, erase (rec j p) = rec' j p.r) {p : P} : erase (pExpr F rec p) = Rd.pExpr F rec' p.r := by
  unfold pExpr Rd.pExpr
  dsimp only
  rw [← skipWs_r]
  exact erase_ite rfl (erase_ite (h _ _) (erase_ite (h _ _) (erase_ite (h _ _) (erase_ite erase_pString (erase_pHash h)))))

theorem erase_step (h : ∀ j p, erase (rec j p) = rec' j p.r) (j : Job) (p : P) : erase (step F rec j p) = Rd.step F rec' j p.r := by
  cases j
  · exact erase_pExpr h
  · exact erase_pQuote h
  · exact erase_pQuasi h
  · exact erase_pUnq h
  · exact erase_pList h
  · exact erase_pItems h
  · exact erase_pVec h
  · exact erase_pElems h

/-- Without the positions it is the reader. -/
theorem erase_rd (n : Nat) : ∀ j p, erase (rd F n j p) = Rd.rd F n j p.r := by
  induction n with
  | zero => intro j p; rfl
  | succ n ih => intro j p; exact erase_step ih j p

theorem erase_parseExpr (p : P) : erase (parseExpr F p) = Rd.parseExpr F p.r := erase_rd _ _ _

end Pscm.Rp
