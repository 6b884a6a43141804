import Verif.RdReportProps
/-!
# The parse stack: lemmas
-/
namespace Pscm.Rp
open Rd

variable {F : FloIO} {text : Bytes}

/-! ## Specification -/

/-- The text has no `()`, not even with white space or comments inside. -/
def NoEmptyList (text : Bytes) : Prop := ∀ pre suf, text = pre ++ 40 :: suf → cur (Rd.skipWs suf) ≠ 41
/-- The text has no vector. -/
def NoVector (text : Bytes) : Prop := ∀ pre suf, text ≠ pre ++ 35 :: 40 :: suf
/-- The text has no quoted character `'#\`. -/
def NoQuotedChar (text : Bytes) : Prop := ∀ pre suf, text ≠ pre ++ 39 :: 35 :: 92 :: suf

/-- The byte with which a construct starts. -/
def opens (k : Kind) (s : Bytes) : Prop :=
  match k with
  | .list => cur s = 40
  | .vector => cur s = 35 ∧ s.getD 1 0 = 40
  | .string => cur s = 34
  | .quote => cur s = 39
  | .quasiquote => cur s = 96

/-- A frame of an unfinished construct: at its place in the text such a construct starts, and the reader cannot read it to its end. -/
def Unfinished (F : FloIO) (text : Bytes) (f : Frame) : Prop :=
  ∃ suf, suf <:+ text ∧ suf.length = f.left ∧ opens f.kind suf ∧ ∀ d r, Rd.parseExpr F suf ≠ .ok d r

/-- Reading keeps or drops frames, and adds frames of unfinished constructs only. -/
def Stk (F : FloIO) (text : Bytes) (s : List Frame) (q : Q) : Prop :=
  match q with
  | .ok _ p => p.stk <:+ s
  | .null p | .err p => ∃ fs t, p.stk = fs ++ t ∧ t <:+ s ∧ ∀ f ∈ fs, Unfinished F text f
  | _ => True

/-! ## Leaves -/

def Keep (s : List Frame) (q : Q) : Prop :=
  match q with
  | .ok _ p | .null p | .err p => p.stk <:+ s
  | _ => True

theorem Keep.stk {s : List Frame} {q : Q} (h : Keep s q) : Stk F text s q := by
  cases q with
  | ok d p => exact h
  | null p => exact ⟨[], p.stk, rfl, h, fun f hf => by cases hf⟩
  | err p => exact ⟨[], p.stk, rfl, h, fun f hf => by cases hf⟩
  | _ => trivial

theorem Keep.ite {s : List Frame} {c : Prop} [Decidable c] {a b : Q} (h1 : Keep s a) (h2 : Keep s b) : Keep s (if c then a else b) := by split <;> assumption
theorem Keep.look {s : List Frame} {p : P} {k : Nat} {f : UInt8 → Q} (h : ∀ c, Keep s (f c)) : Keep s (look p k f) := by
  unfold Rp.look
  split
  · exact h _
  · trivial
theorem Keep.adv {s : List Frame} {p : P} {k : Nat} {f : P → Q} (hp : p.stk <:+ s) (h : ∀ p', p'.stk <:+ s → Keep s (f p')) : Keep s (adv p k f) := by
  unfold Rp.adv
  split
  · exact h _ hp
  · trivial
theorem Keep.mark {s : List Frame} {p0 p : P} {d : D} (hp : p.stk <:+ s) : Keep s (mark p0 d p) := hp
theorem Keep.orElse {s : List Frame} {x y : Q} (h1 : Keep s x) (h2 : Keep s y) : Keep s (orElse x y) := by cases x <;> first | exact h2 | exact h1

theorem pExp_keep {p0 p : P} {neg n frac} {s : List Frame} (h : p.stk <:+ s) : Keep s (pExp F p0 neg n frac p) := by
  unfold pExp
  refine Keep.adv h fun p1 h1 => Keep.adv h1 fun p2 h2 => Keep.ite ?_ h2
  split
  · trivial
  · exact h2

theorem pTail_keep {p0 p : P} {neg n frac} {s : List Frame} (h : p.stk <:+ s) : Keep s (pTail F p0 neg n frac p) := by
  unfold pTail
  refine Keep.ite (pExp_keep h) ?_
  split <;> exact h

theorem pDigits_keep {p0 p : P} {neg} {s : List Frame} (h : p.stk <:+ s) : Keep s (pDigits F p0 neg p) := by
  unfold pDigits
  split
  · trivial
  · exact Keep.ite (Keep.adv (p := over isDigit p) h fun p2 h2 => pTail_keep (p := over isDigit p2) h2) (pTail_keep (p := over isDigit p) h)

theorem pNumber_keep {p : P} : Keep p.stk (pNumber F p) := by
  unfold pNumber
  exact Keep.ite (Keep.look fun _ => Keep.ite (Keep.adv List.suffix_rfl fun _ h => pDigits_keep h) List.suffix_rfl)
    (Keep.ite (Keep.look fun _ => Keep.ite (Keep.adv List.suffix_rfl fun _ h => pDigits_keep h) List.suffix_rfl)
      (Keep.ite (pDigits_keep List.suffix_rfl) List.suffix_rfl))

theorem pChar_keep {p : P} : Keep p.stk (pChar p) := by
  unfold pChar
  refine Keep.ite (Keep.look fun _ => Keep.ite (Keep.adv List.suffix_rfl fun p1 h1 => ?_) List.suffix_rfl) List.suffix_rfl
  have ha : ∀ d, Keep p.stk (adv p1 1 (mark p d)) := fun d => Keep.adv h1 fun p2 h2 => h2
  refine Keep.ite h1 (Keep.ite (ha _) (Keep.ite ?_ (ha _)))
  split
  · exact h1
  · exact ha _

theorem tail_push {k : Kind} {p : P} : (push k p).stk.tail <:+ p.stk := by
  unfold push
  split
  · exact List.tail_suffix _
  · exact List.suffix_rfl

theorem pString_keep {p : P} : Keep p.stk (pString p) := by
  unfold pString adv
  split
  · dsimp only
    split
    · exact tail_push
    · exact (List.tail_suffix _).trans tail_push
  · trivial

theorem Keep.litEnd {s : List Frame} {p1 : P} {a b : UInt8} {y n : Q} (hy : Keep s y) (hn : Keep s n) : Keep s (litEnd a b p1 y n) := by
  unfold Rp.litEnd
  exact Keep.ite (Keep.look fun _ => Keep.ite (Keep.look fun _ => Keep.ite hy hn) hn) hn

theorem pSymbol_keep {p : P} : Keep p.stk (pSymbol p) := by
  unfold pSymbol
  have hb : ∀ d, Keep p.stk (adv p 2 (mark p d)) := fun d => Keep.adv List.suffix_rfl fun p2 h => h
  exact Keep.litEnd (hb _) (Keep.litEnd (hb _) (Keep.ite List.suffix_rfl List.suffix_rfl))

theorem pBrace_keep {p : P} : Keep p.stk (pBrace p) := by
  unfold pBrace
  refine Keep.adv List.suffix_rfl fun p1 h1 => ?_
  dsimp only
  split
  · exact h1
  · refine Keep.ite ?_ h1
    apply Keep.adv
    · exact h1
    · exact fun p2 h2 => h2

theorem pAtom_keep {p : P} : Keep p.stk (pAtom F p) := by
  unfold pAtom
  have h1 : Keep p.stk (orElse (pNumber F p) (orElse (pSymbol p) (.err p))) := pNumber_keep.orElse (pSymbol_keep.orElse List.suffix_rfl)
  have h2 := Keep.orElse pSymbol_keep h1
  exact Keep.litEnd h2 (Keep.litEnd h2 h1)

/-! ## Compound data -/

theorem Stk.ite {s : List Frame} {c : Prop} [Decidable c] {a b : Q} (h1 : c → Stk F text s a) (h2 : ¬ c → Stk F text s b) : Stk F text s (if c then a else b) := by
  split
  · exact h1 ‹_›
  · exact h2 ‹_›
theorem Stk.look {s : List Frame} {p : P} {k : Nat} {f : UInt8 → Q} (h : Stk F text s (f (p.r.getD k 0))) : Stk F text s (look p k f) := by
  unfold Rp.look
  split
  · exact h
  · trivial
theorem Stk.orElse {s : List Frame} {x y : Q} (h1 : Stk F text s x) (h2 : Stk F text s y) : Stk F text s (orElse x y) := by cases x <;> first | exact h2 | exact h1

theorem Stk.mono {s t : List Frame} (h : s <:+ t) {q : Q} (hq : Stk F text s q) : Stk F text t q := by
  cases q with
  | ok d p => exact List.IsSuffix.trans hq h
  | null p => obtain ⟨fs, u, e, hu, hf⟩ := hq; exact ⟨fs, u, e, hu.trans h, hf⟩
  | err p => obtain ⟨fs, u, e, hu, hf⟩ := hq; exact ⟨fs, u, e, hu.trans h, hf⟩
  | _ => trivial

theorem Stk.adv {s : List Frame} {p : P} {k : Nat} {f : P → Q} (h : ∀ p', p'.stk = p.stk → p'.r = p.r.drop k → Stk F text s (f p')) :
    Stk F text s (adv p k f) := by
  unfold Rp.adv
  split
  · exact h _ rfl rfl
  · trivial

theorem unf_tail {s stk : List Frame} (h : ∃ fs t, stk = fs ++ t ∧ t <:+ s ∧ ∀ f ∈ fs, Unfinished F text f) :
    ∃ fs t, stk.tail = fs ++ t ∧ t <:+ s ∧ ∀ f ∈ fs, Unfinished F text f := by
  obtain ⟨fs, t, rfl, ht, hf⟩ := h
  cases fs with
  | nil => exact ⟨[], t.tail, rfl, (List.tail_suffix _).trans ht, fun f hf => by cases hf⟩
  | cons f fs => exact ⟨fs, t, rfl, ht, fun g hg => hf g (by simp [hg])⟩

theorem Stk.need {b : Bool} {s : List Frame} {x : Q} {f : D → P → Q} (hx : Stk F text s x)
    (hf : ∀ d p, x = .ok d p → Stk F text p.stk (f d p)) : Stk F text s (need b x f) := by
  cases x with
  | ok d p => exact (hf d p rfl).mono hx
  | null p =>
    cases b
    · exact hx
    · exact unf_tail hx
  | err p => exact hx
  | _ => trivial

theorem skip_stk (p : P) : (skipWs p).stk = p.stk := rfl

/-- The result of a construct that pushed its frame: the frame is popped on success, and it is unfinished otherwise. -/
theorem Stk.frame {k : Kind} {p : P} {q : Q} (hok : ∀ d p', q = .ok d p' → p'.stk <:+ (push k p).stk.tail) (hq : Stk F text (push k p).stk q)
    (hu : (∃ p', q = .null p' ∨ q = .err p') → Unfinished F text ⟨k, p.line, p.col, p.r.length⟩) : Stk F text p.stk q := by
  have hx : (∃ p', q = .null p' ∨ q = .err p') → ∀ stk : List Frame, (∃ fs t, stk = fs ++ t ∧ t <:+ (push k p).stk ∧ ∀ f ∈ fs, Unfinished F text f) →
      ∃ fs t, stk = fs ++ t ∧ t <:+ p.stk ∧ ∀ f ∈ fs, Unfinished F text f := by
    rintro hn stk ⟨fs, t, rfl, ht, hf⟩
    unfold push at ht
    split at ht
    · exact ⟨fs, t, rfl, ht, hf⟩
    · rcases List.suffix_cons_iff.1 ht with rfl | ht
      · refine ⟨fs ++ [⟨k, p.line, p.col, p.r.length⟩], p.stk, by simp, List.suffix_rfl, fun f h => ?_⟩
        rcases List.mem_append.1 h with h | h
        · exact hf f h
        · rw [List.mem_singleton.1 h]; exact hu hn
      · exact ⟨fs, t, rfl, ht, hf⟩
  cases q with
  | ok d p' => exact (hok d p' rfl).trans tail_push
  | null p' => exact hx ⟨p', .inl rfl⟩ _ hq
  | err p' => exact hx ⟨p', .inr rfl⟩ _ hq
  | _ => trivial

theorem lim_start {r : Bytes} {c : UInt8} {j : Job} (h : cur r = c) (hj : (c, j) ∈ [((40 : UInt8), Job.list), (39, .quote), (96, .quasi)]) :
    lim F .expr r = lim F j r := by
  rw [lim_eq]
  show Rd.pExpr F _ r = _
  unfold Rd.pExpr
  have hc : isSpace c = false ∧ c ≠ 59 := by
    simp only [List.mem_cons, Prod.mk.injEq, List.not_mem_nil, or_false] at hj
    rcases hj with ⟨rfl, _⟩ | ⟨rfl, _⟩ | ⟨rfl, _⟩ <;> decide
  have hs : Rd.skipWs r = r := skipWs_of (by rw [h]; exact hc.1) (by rw [h]; exact hc.2)
  simp only [hs, h]
  simp only [List.mem_cons, Prod.mk.injEq, List.not_mem_nil, or_false] at hj
  rcases hj with ⟨rfl, rfl⟩ | ⟨rfl, rfl⟩ | ⟨rfl, rfl⟩ <;> rfl

theorem unfinished_of {n : Nat} {j : Job} {p : P} {c : UInt8} {k : Kind} (hp : p.r <:+ text) (h : cur p.r = c)
    (hj : (c, j) ∈ [((40 : UInt8), Job.list), (39, .quote), (96, .quasi)]) (hk : opens k p.r)
    (hq : ∃ p', rd F n j p = .null p' ∨ rd F n j p = .err p') : Unfinished F text ⟨k, p.line, p.col, p.r.length⟩ := by
  refine ⟨p.r, hp, rfl, hk, fun d r e => ?_⟩
  rw [parseExpr_lim, lim_start h hj] at e
  have he := erase_rd (F := F) n j p
  obtain ⟨p', hq | hq⟩ := hq <;> rw [hq] at he
  · have := (rd_lim (F := F) (n := n) (j := j) (r := p.r)).resolve_left (by rw [← he]; exact fun h => by cases h)
    rw [e, ← he] at this
    cases this
  · have := (rd_lim (F := F) (n := n) (j := j) (r := p.r)).resolve_left (by rw [← he]; exact fun h => by cases h)
    rw [e, ← he] at this
    cases this

theorem suffix_drop {r : Bytes} {k : Nat} (h : r <:+ text) : r.drop k <:+ text := (List.drop_suffix ..).trans h
theorem suffix_skip {p : P} (h : p.r <:+ text) : (skipWs p).r <:+ text := by rw [skipWs_r]; exact (skipWs_suffix _).trans h

theorem Stk.close {p : P} {b : Bool} {x : D} : Stk F text p.stk (close b x p) := by
  unfold Rp.close
  refine Stk.ite (fun _ => Stk.adv fun p' h _ => ?_) fun _ => ?_
  · show p'.stk <:+ p.stk
    rw [h]
    exact List.suffix_rfl
  · cases b
    · exact ⟨[], p.stk, rfl, List.suffix_rfl, fun f hf => by cases hf⟩
    · exact ⟨[], p.stk.tail, rfl, List.tail_suffix _, fun f hf => by cases hf⟩

theorem stk_ok {s : List Frame} {d : D} {p : P} (h : p.stk <:+ s) : Stk F text s (.ok d p) := h
theorem stk_null {p : P} : Stk F text p.stk (.null p) := ⟨[], p.stk, rfl, List.suffix_rfl, fun f hf => by cases hf⟩

theorem need_ok {b : Bool} {x : Q} {f : D → P → Q} {d : D} {p : P} (h : need b x f = .ok d p) : ∃ d' p', x = .ok d' p' ∧ f d' p' = .ok d p := by
  cases x with
  | ok d' p' => exact ⟨d', p', rfl, h⟩
  | _ => cases h

theorem orElse_ok {x y : Q} {d : D} {p : P} (h : orElse x y = .ok d p) : x = .ok d p ∨ y = .ok d p := by
  cases x with
  | null p' => exact .inr h
  | _ => exact .inl h

theorem adv_ok {p0 : P} {k : Nat} {f : P → Q} {d : D} {p : P} (h : adv p0 k f = .ok d p) :
    ∃ p1 : P, p1.stk = p0.stk ∧ p1.r = p0.r.drop k ∧ f p1 = .ok d p := by
  unfold adv at h
  split at h
  · exact ⟨{ p0 with r := p0.r.drop k, col := p0.col + k }, rfl, rfl, h⟩
  · cases h

theorem tail_mono {a b : List Frame} (h : a <:+ b) : a.tail <:+ b.tail := by
  obtain ⟨u, rfl⟩ := h
  cases u with
  | nil => exact List.suffix_rfl
  | cons x u => exact (List.tail_suffix _).trans ⟨u, rfl⟩

theorem rd_stk (he : NoEmptyList text) (hv : NoVector text) (hc : NoQuotedChar text) (n : Nat) :
    ∀ (j : Job) (p : P), p.r <:+ text → (j ≠ .elems) → Stk F text p.stk (rd F n j p) := by
  induction n with
  | zero => intro j p _ _; trivial
  | succ n ih =>
    intro j p hp hj
    have suf : ∀ {j : Job} {p p' : P} {d : D}, rd F n j p = .ok d p' → p.r <:+ text → p'.r <:+ text := fun e h => (suffix_of_ok e).trans h
    have ue : ∀ {p : P}, p.r <:+ text → Stk F text p.stk (orElse (rd F n .unq p) (rd F n .expr p)) :=
      fun h => (ih _ _ h (by simp)).orElse (ih _ _ h (by simp))
    have ueS : ∀ {p p' : P} {d : D}, orElse (rd F n .unq p) (rd F n .expr p) = .ok d p' → p.r <:+ text → p'.r <:+ text :=
      fun e h => (orElse_ok e).elim (fun e => suf e h) fun e => suf e h
    cases j with
    | expr =>
      have h1 := suffix_skip hp
      show Stk F text p.stk (pExpr F (rd F n) p)
      unfold pExpr
      dsimp only
      refine Stk.ite (fun _ => stk_null (p := skipWs p)) fun _ => Stk.ite (fun _ => ih _ (skipWs p) h1 (by simp)) fun _ =>
        Stk.ite (fun _ => ih _ (skipWs p) h1 (by simp)) fun _ => Stk.ite (fun _ => ih _ (skipWs p) h1 (by simp)) fun _ =>
        Stk.ite (fun _ => (pString_keep (p := skipWs p)).stk) fun _ => ?_
      have plain : Stk F text p.stk (orElse (pChar (skipWs p)) (orElse (rd F n .vec (skipWs p)) (pAtom F (skipWs p)))) :=
        Stk.orElse (pChar_keep (p := skipWs p)).stk (Stk.orElse (ih _ (skipWs p) h1 (by simp)) (pAtom_keep (p := skipWs p)).stk)
      unfold pHash
      refine Stk.ite (fun _ => Stk.look (Stk.ite (fun _ => Stk.adv fun p1 e1 r1 => ?_) fun _ => Stk.ite (fun _ => (pBrace_keep (p := skipWs p)).stk) fun _ => plain))
        fun _ => plain
      have hk : Keep p.stk (pSymbol { p1 with col := (skipWs p).col }) := by
        have e1 : p1.stk = p.stk := e1
        rw [← e1]
        exact pSymbol_keep (p := { p1 with col := (skipWs p).col })
      exact Stk.need hk.stk fun d p2 _ => stk_ok List.suffix_rfl
    | quote =>
      by_cases h39 : cur p.r == 39
      · have h39' : cur p.r = 39 := by simpa using h39
        obtain ⟨t, et⟩ := cur_ne h39' (by decide)
        have hno : ¬ (cur t = 35 ∧ t.getD 1 0 = 92) := by
          rintro ⟨ha, hb⟩
          obtain ⟨u, rfl⟩ := cur_ne ha (by decide)
          obtain ⟨v, rfl⟩ : ∃ v, u = 92 :: v := by
            cases u with
            | nil => cases hb
            | cons x v => exact ⟨v, by have : x = 92 := hb
                                       rw [this]⟩
          obtain ⟨pre, epre⟩ := hp
          exact hc pre v (by rw [← epre, et])
        have e : rd F (n + 1) .quote p = adv (push .quote p) 1 fun p1 =>
            if cur p1.r == 35 then look p1 1 fun c => if c == 92 then need false (pChar p1) fun d p2 => .ok (form "quote" d) p2
              else need true (orElse (rd F n .unq p1) (rd F n .expr p1)) fun d p2 => .ok (form "quote" d) (pop p2)
            else need true (orElse (rd F n .unq p1) (rd F n .expr p1)) fun d p2 => .ok (form "quote" d) (pop p2) := by
          show pQuote _ _ = _
          unfold pQuote
          rw [if_pos h39]
        refine Stk.frame (k := .quote) (fun d p' h => ?_) ?_ fun h => unfinished_of hp h39' (by simp) h39' h
        · rw [e] at h
          obtain ⟨p1, e1, r1, h⟩ := adv_ok h
          rw [push_r, et] at r1
          have r1 : p1.r = t := r1
          have ho : ∀ {d p'}, (need true (orElse (rd F n .unq p1) (rd F n .expr p1)) fun d p2 => .ok (form "quote" d) (pop p2)) = .ok d p' →
              p'.stk <:+ (push .quote p).stk.tail := by
            intro d p' h
            obtain ⟨d2, p2, e2, h⟩ := need_ok h
            cases h
            have := ue (p := p1) (by rw [r1]; exact suffix_drop (k := 1) (by rw [← et]; exact hp : (39 :: t) <:+ text))
            rw [e2] at this
            rw [← e1]
            exact tail_mono this
          split at h
          · rename_i h35
            unfold look at h
            split at h
            · dsimp only at h
              split at h
              · rename_i h92
                rw [r1] at h35 h92
                exact absurd ⟨by simpa using h35, by simpa using h92⟩ hno
              · exact ho h
            · cases h
          · exact ho h
        · rw [e]
          refine Stk.adv fun p1 e1 r1 => ?_
          rw [← e1]
          have hp1 : p1.r <:+ text := by rw [r1, push_r]; exact suffix_drop hp
          have ho : Stk F text p1.stk (need true (orElse (rd F n .unq p1) (rd F n .expr p1)) fun d p2 => .ok (form "quote" d) (pop p2)) :=
            Stk.need (ue hp1) fun d p2 _ => stk_ok (List.tail_suffix _)
          exact Stk.ite (fun _ => Stk.look (Stk.ite (fun _ => Stk.need pChar_keep.stk fun d p2 _ => stk_ok List.suffix_rfl) fun _ => ho)) fun _ => ho
      · have e : rd F (n + 1) .quote p = .null p := by
          show pQuote _ _ = _
          unfold pQuote
          rw [if_neg h39]
        rw [e]
        exact stk_null
    | quasi =>
      by_cases h96 : cur p.r == 96
      · have h96' : cur p.r = 96 := by simpa using h96
        have e : rd F (n + 1) .quasi p = adv (push .quasiquote p) 1 fun p1 =>
            need true (orElse (rd F n .unq p1) (rd F n .expr p1)) fun d p2 => .ok (form "quasiquote" d) (pop p2) := by
          show pQuasi _ _ = _
          unfold pQuasi
          rw [if_pos h96]
        refine Stk.frame (k := .quasiquote) (fun d p' h => ?_) ?_ fun h => unfinished_of hp h96' (by simp) h96' h
        · rw [e] at h
          obtain ⟨p1, e1, r1, h⟩ := adv_ok h
          obtain ⟨d2, p2, e2, h⟩ := need_ok h
          cases h
          have := ue (p := p1) (by rw [r1, push_r]; exact suffix_drop hp)
          rw [e2] at this
          rw [← e1]
          exact tail_mono this
        · rw [e]
          refine Stk.adv fun p1 e1 r1 => ?_
          rw [← e1]
          exact Stk.need (ue (by rw [r1, push_r]; exact suffix_drop hp)) fun d p2 _ => stk_ok (List.tail_suffix _)
      · have e : rd F (n + 1) .quasi p = .null p := by
          show pQuasi _ _ = _
          unfold pQuasi
          rw [if_neg h96]
        rw [e]
        exact stk_null
    | unq =>
      show Stk F text p.stk (pUnq (rd F n) p)
      unfold pUnq
      have fin : ∀ {j : Job} {p1 : P} {f : D → D}, j ≠ .elems → p1.r <:+ text → Stk F text p1.stk (need false (rd F n j p1) fun d p2 => .ok (f d) p2) :=
        fun hj h => Stk.need (ih _ _ h hj) fun d p2 _ => stk_ok List.suffix_rfl
      refine Stk.ite (fun _ => Stk.look (Stk.ite (fun _ => Stk.adv fun p1 e1 r1 => ?_) fun _ => Stk.adv fun p0 e0 r0 => ?_)) fun _ => stk_null
      · rw [← e1]
        exact fin (by simp) (by rw [r1]; exact suffix_drop hp)
      · have hp0 : (skipWs p0).r <:+ text := suffix_skip (by rw [r0]; exact suffix_drop hp)
        rw [← e0, ← skip_stk]
        exact Stk.ite (fun _ => fin (by simp) hp0) fun _ => Stk.ite (fun _ => fin (by simp) hp0) fun _ => fin (by simp) hp0
    | list =>
      by_cases h40 : cur p.r == 40
      · have h40' : cur p.r = 40 := by simpa using h40
        obtain ⟨t, et⟩ := cur_ne h40' (by decide)
        have hno : cur (Rd.skipWs t) ≠ 41 := by
          obtain ⟨pre, epre⟩ := hp
          exact he pre t (by rw [← epre, et])
        have e : rd F (n + 1) .list p = adv (push .list p) 1 fun p0 =>
            if cur (skipWs p0).r == 41 then adv (skipWs p0) 1 (mark p .nil)
            else match rd F n .items (skipWs p0) with
              | .ok d p2 => mark p d (pop p2)
              | x => x := by
          show pList _ _ = _
          unfold pList
          rw [if_pos h40]
          rfl
        have hcur : ∀ p0 : P, p0.r = (push .list p).r.drop 1 → ¬ (cur (skipWs p0).r == 41) = true := by
          intro p0 r0
          rw [skipWs_r, r0, push_r, et]
          simpa using hno
        refine Stk.frame (k := .list) (fun d p' h => ?_) ?_ fun h => unfinished_of hp h40' (by simp) h40' h
        · rw [e] at h
          obtain ⟨p0, e0, r0, h⟩ := adv_ok h
          rw [if_neg (hcur p0 r0)] at h
          have := ih .items (skipWs p0) (suffix_skip (by rw [r0, push_r]; exact suffix_drop hp)) (by simp)
          cases hi : rd F n .items (skipWs p0) with
          | ok d2 p2 =>
            rw [hi] at h this
            cases h
            rw [← e0]
            exact tail_mono this
          | _ => rw [hi] at h; cases h
        · rw [e]
          refine Stk.adv fun p0 e0 r0 => ?_
          rw [if_neg (hcur p0 r0), ← e0]
          have := ih .items (skipWs p0) (suffix_skip (by rw [r0, push_r]; exact suffix_drop hp)) (by simp)
          cases hi : rd F n .items (skipWs p0) with
          | ok d2 p2 =>
            rw [hi] at this
            exact (List.tail_suffix _).trans this
          | _ => rw [hi] at this; exact this
      · have e : rd F (n + 1) .list p = .null p := by
          show pList _ _ = _
          unfold pList
          rw [if_neg h40]
        rw [e]
        exact stk_null
    | items =>
      show Stk F text p.stk (pItems (rd F n) p)
      unfold pItems
      refine Stk.ite (fun _ => Stk.close) fun _ => Stk.need ((ih _ _ hp (by simp)).orElse (ue hp)) fun elem p1 e1 => ?_
      have hp1 : (skipWs p1).r <:+ text := suffix_skip ((orElse_ok e1).elim (fun e => suf e hp) fun e => ueS e hp)
      unfold pDot
      rw [← skip_stk]
      have hn : Stk F text (skipWs p1).stk (need false (rd F n .items (skipWs p1)) fun d p' => .ok (.pair elem d) p') :=
        Stk.need (ih _ _ hp1 (by simp)) fun d p2 _ => stk_ok List.suffix_rfl
      refine Stk.ite (fun _ => Stk.look (Stk.ite (fun _ => hn) fun _ => Stk.adv fun p3 e3 r3 => ?_)) fun _ => hn
      have hp3 : (skipWs p3).r <:+ text := suffix_skip (by rw [r3]; exact suffix_drop hp1)
      rw [← e3, ← skip_stk]
      exact Stk.need (ue hp3) fun d p4 _ => Stk.close (p := skipWs p4)
    | vec =>
      have e : (∃ q : P, rd F (n + 1) .vec p = .null q ∧ q.stk = p.stk) ∨ rd F (n + 1) .vec p = .oob := by
        show (∃ q : P, pVec _ _ = .null q ∧ _) ∨ pVec _ _ = _
        unfold pVec look
        split
        · rename_i h35
          split
          · dsimp only
            split
            · rename_i h40
              obtain ⟨t, et⟩ := cur_beq h35 (by decide)
              rw [et] at h40
              obtain ⟨u, rfl⟩ : ∃ u, t = 40 :: u := by
                cases t with
                | nil => cases h40
                | cons x u => exact ⟨u, by have : x = 40 := by simpa using h40
                                           rw [this]⟩
              obtain ⟨pre, epre⟩ := hp
              exact absurd (by rw [← epre, et]) (hv pre u)
            · exact .inl ⟨p, rfl, rfl⟩
          · exact .inr rfl
        · exact .inl ⟨p, rfl, rfl⟩
      rcases e with ⟨q, e, es⟩ | e
      · rw [e, ← es]; exact stk_null
      · rw [e]; trivial
    | elems => exact absurd rfl hj

end Pscm.Rp
