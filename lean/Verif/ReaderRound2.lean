import Verif.ReaderRound
/-! # Lemmas: reading back compound data -/
namespace Pscm.Rd
open Spec
variable {F : FloIO}

/-- The datum that is read back. -/
def canon : D → D
  | .pair a d => .pair (canon a) (canon d)
  | .dot x => if properPair x then canon x else .dot (canon x)
  | .vec e => .vec (canon e)
  | x => x

/-- How the text of a datum may start. -/
def StartOk (s : Bytes) : Prop :=
  ∃ c t, s = c :: t ∧ isSpace c = false ∧ c ≠ 59 ∧ c ≠ 0 ∧ c ≠ 41 ∧ c ≠ 44 ∧ (c = 46 → ∃ e u, t = e :: u ∧ dotSym e = true)

theorem cstr_self {s : Bytes} (h : (0 : UInt8) ∉ s) : cstr s = s := by
  unfold cstr
  induction s with
  | nil => rfl
  | cons c t ih =>
    have hc : c ≠ 0 := fun hh => h (by simp [hh])
    rw [List.takeWhile_cons, if_pos (by simpa using hc), ih fun hh => h (by simp [hh])]

theorem StartOk.append {s : Bytes} (h : StartOk s) (r : Bytes) : StartOk (s ++ r) := by
  obtain ⟨c, t, rfl, h1, h2, h3, h4, h5, h6⟩ := h
  refine ⟨c, t ++ r, rfl, h1, h2, h3, h4, h5, fun hc => ?_⟩
  obtain ⟨e, u, rfl, he⟩ := h6 hc
  exact ⟨e, u ++ r, rfl, he⟩

theorem StartOk.skip {s : Bytes} (h : StartOk s) : skipWs s = s := by
  obtain ⟨c, t, rfl, h1, h2, _⟩ := h
  exact skipWs_id h1 h2

theorem StartOk.cur {s : Bytes} (h : StartOk s) : cur s ≠ 0 ∧ cur s ≠ 41 ∧ cur s ≠ 44 := by
  obtain ⟨c, t, rfl, h1, h2, h3, h4, h5, _⟩ := h
  exact ⟨h3, h4, h5⟩

theorem lim_unq_null {r : Bytes} (h : cur r ≠ 44) : lim F .unq r = .null r := by
  rw [lim_eq]
  show pUnq _ _ = _
  unfold pUnq
  rw [if_neg (by simpa using h)]

theorem lim_quote_null {r : Bytes} (h : cur r ≠ 39) : lim F .quote r = .null r := by
  rw [lim_eq]
  show pQuote _ _ = _
  unfold pQuote
  rw [if_neg (by simpa using h)]

theorem StartOk.quote {s : Bytes} (h : StartOk s) : lim F .quote s = if Rd.cur s == 39 then lim F .expr s else .null s := by
  split
  · rename_i h39
    obtain ⟨t, rfl⟩ := cur_beq h39 (by decide)
    rw [lim_expr]
    unfold pExpr
    rw [h.skip]
    rfl
  · rename_i h39
    exact lim_quote_null (by simpa using h39)

/-- An element of a list. -/
theorem elem_read {s : Bytes} (h : StartOk s) :
    Rd.orElse (lim F .quote s) (Rd.orElse (lim F .unq s) (lim F .expr s)) = Rd.orElse (lim F .expr s) (lim F .expr s) := by
  rw [h.quote, lim_unq_null h.cur.2.2]
  split
  · cases hx : lim F .expr s <;> rfl
  · cases hx : lim F .expr s <;> rfl

theorem elem_read' {s : Bytes} (h : StartOk s) : Rd.orElse (lim F .unq s) (lim F .expr s) = lim F .expr s := by
  rw [lim_unq_null h.cur.2.2]
  rfl

theorem items_elem {s r1 : Bytes} {d : D} (h : StartOk s) (hr : lim F .expr s = .ok d r1) : lim F .items s = pDot (lim F) d (skipWs r1) := by
  rw [lim_eq]
  show pItems _ _ = _
  unfold pItems
  obtain ⟨h0, h1, _⟩ := h.cur
  rw [if_neg (by simp [h0, h1]), elem_read h, hr]
  rfl

theorem elems_elem {s r1 : Bytes} {d : D} (h : StartOk s) (hr : lim F .expr s = .ok d r1) :
    lim F .elems s = need (lim F .elems (skipWs r1)) fun e r2 => .ok (.pair d e) r2 := by
  rw [lim_eq]
  show pElems _ _ = _
  unfold pElems
  obtain ⟨h0, h1, _⟩ := h.cur
  rw [if_neg (by simp [h0, h1]), elem_read' h, hr]
  rfl

/-- No dot in front: the next element or the end. -/
theorem pDot_next {elem : D} {s : Bytes} (h : StartOk s ∨ cur s = 41) :
    pDot (lim F) elem s = need (lim F .items s) fun d r' => .ok (.pair elem d) r' := by
  unfold pDot
  rcases h with ⟨c, t, rfl, h1, h2, h3, h4, h5, h6⟩ | h
  · by_cases h46 : c = 46
    · obtain ⟨e, u, rfl, he⟩ := h6 h46
      simp [h46, he]
    · simp [h46]
  · simp [h]

theorem items_close (rest : Bytes) : lim F .items (41 :: rest) = .ok .nil rest := by
  rw [lim_eq]
  show pItems _ _ = _
  simp [pItems, close]

theorem elems_close (rest : Bytes) : lim F .elems (41 :: rest) = .ok .nil rest := by
  rw [lim_eq]
  show pElems _ _ = _
  simp [pElems, close]

theorem list_open {t : Bytes} (h : skipWs t = t) (h2 : cur t ≠ 41) : lim F .expr (40 :: t) = lim F .items t := by
  rw [lim_expr]
  unfold pExpr
  rw [skipWs_id (by decide) (by decide)]
  have e2 : ∀ (a b c d e f : R), (if (40 : UInt8) == 0 then a else if (40 : UInt8) == 39 then b else if (40 : UInt8) == 96 then c else
      if (40 : UInt8) == 40 then d else if (40 : UInt8) == 34 then e else f) = d := by intros; rfl
  refine (e2 _ _ _ _ _ _).trans ?_
  rw [lim_eq]
  show pList _ _ = _
  simp [pList, h, h2]

theorem list_empty (rest : Bytes) : lim F .expr (40 :: 41 :: rest) = .ok .nil rest := by
  rw [lim_expr]
  unfold pExpr
  rw [skipWs_id (by decide) (by decide)]
  have e2 : ∀ (a b c d e f : R), (if (40 : UInt8) == 0 then a else if (40 : UInt8) == 39 then b else if (40 : UInt8) == 96 then c else
      if (40 : UInt8) == 40 then d else if (40 : UInt8) == 34 then e else f) = d := by intros; rfl
  refine (e2 _ _ _ _ _ _).trans ?_
  rw [lim_eq]
  show pList _ _ = _
  have : skipWs (41 :: rest) = 41 :: rest := skipWs_id (by decide) (by decide)
  simp [pList, this]

theorem vec_open (t : Bytes) : lim F .expr (35 :: 40 :: t) =
    (if cur (skipWs t) == 41 then adv (skipWs t) 1 (.ok (.vec .nil)) else need (lim F .elems (skipWs t)) fun d r2 => .ok (.vec d) r2) := by
  have hs : PlainStart 35 := ⟨by decide, by decide, by decide, by decide, by decide, by decide, by decide⟩
  rw [expr_hash hs, pHash]
  have e : ∀ (a b c : R), (if (35 : UInt8) == 35 then (if (40 : UInt8) == 58 then a else if (40 : UInt8) == 123 then b else c) else c) = c := by
    intros; rfl
  simp only [look_one]
  refine (e _ _ _).trans ?_
  have hc : pChar (35 :: 40 :: t) = .null (35 :: 40 :: t) := by simp [pChar]
  have hv : lim F .vec (35 :: 40 :: t) = pVec (lim F) (35 :: 40 :: t) := lim_eq _ _
  rw [hc, hv]
  show Rd.orElse (pVec (lim F) (35 :: 40 :: t)) _ = _
  have hv2 : pVec (lim F) (35 :: 40 :: t) =
    (if cur (skipWs t) == 41 then adv (skipWs t) 1 (.ok (.vec .nil)) else need (lim F .elems (skipWs t)) fun d r2 => .ok (.vec d) r2) := by
    unfold pVec
    simp only [cur_cons, beq_self_eq_true, ↓reduceIte, look_one, adv_two]
  rw [hv2]
  split
  · rename_i h
    obtain ⟨u, hu⟩ := cur_beq h (by decide)
    rw [hu]
    simp [Rd.orElse]
  · cases lim F .elems (skipWs t) <;> rfl

/-- `'` followed by a datum. -/
theorem quote_read {s r : Bytes} {d : D} (h : StartOk s) (hr : lim F .expr s = .ok d r) : lim F .expr (39 :: s) = .ok (form "quote" d) r := by
  rw [lim_expr]
  unfold pExpr
  rw [skipWs_id (by decide) (by decide)]
  have e2 : ∀ (a b f : R), (if (39 : UInt8) == 0 then a else if (39 : UInt8) == 39 then b else f) = b := by intros; rfl
  refine (e2 _ _ _).trans ?_
  rw [lim_eq]
  show pQuote _ _ = _
  unfold pQuote
  simp only [cur_cons, beq_self_eq_true, ↓reduceIte, adv_one]
  have ho : (need (Rd.orElse (lim F .unq s) (lim F .expr s)) fun d r2 => .ok (form "quote" d) r2) = .ok (form "quote" d) r := by
    rw [elem_read' h, hr]
    rfl
  split
  · rename_i h35
    obtain ⟨t, rfl⟩ := cur_beq h35 (by decide)
    rw [look_one]
    split
    · rename_i h92
      obtain ⟨u, rfl⟩ := cur_beq h92 (by decide)
      rw [expr_char] at hr
      cases hp : pChar (35 :: 92 :: u) with
      | ok d' r' =>
        rw [hp] at hr
        injection hr with h1 h2
        subst h1 h2
        rfl
      | _ =>
        rw [hp] at hr
        cases hr
    · exact ho
  · exact ho

/-! ## What the printer writes for readable data -/

theorem headOf_none {a : D} (h : ¬ SpecialHead a) (hn : ∀ s, a = .sym s → (0 : UInt8) ∉ s) : headOf a = .none := by
  cases a with
  | sym s =>
    have hc : cstr s = s := cstr_self (hn s rfl)
    unfold SpecialHead at h
    simp only [D.sym.injEq, not_or] at h
    simp [headOf, hc, h]
  | _ => rfl

theorem symOk_cstr {s : Bytes} (h : SymOk s) : (0 : UInt8) ∉ s ∧ cstr s = s ∧ symText s = s := by
  have h0 : (0 : UInt8) ∉ s := fun hm => absurd (symChar_iff.1 (h.chars 0 hm)) (by decide)
  have hc : cstr s = s := cstr_self h0
  refine ⟨h0, hc, ?_⟩
  unfold symText
  rw [hc, if_neg]
  intro h58
  obtain ⟨t, ht⟩ := cur_beq h58 (by decide)
  exact h.keyword t ht

theorem symOk_start {s : Bytes} (h : SymOk s) : StartOk s := by
  cases s with
  | nil => exact absurd rfl h.nonempty
  | cons c t =>
    have hc := symChar_iff.1 (h.chars c (by simp))
    obtain ⟨h1, h2, h3, h4, h5, h6, h7, h8, h9, h10, h11⟩ := const_facts c hc
    refine ⟨c, t, rfl, h1, h2, h3, h10, h9, ?_⟩
    rintro rfl
    cases t with
    | nil => exact absurd rfl h.dot
    | cons e u =>
      refine ⟨e, u, rfl, ?_⟩
      have he := symChar_iff.1 (h.chars e (by simp))
      have hne : e ≠ 124 := fun hh => h.dotBar u (by rw [hh])
      exact (show ∀ e : UInt8, isConst e = true → e ≠ 124 → dotSym e = true by decide +kernel) e he hne

/-- The quotation mark is used. -/
def tickCtx (c : Ctx) : Bool := c.qq && !c.unq

/-- A list that is not abbreviated is written element by element, its head in the same way as its operand, for some context. -/
theorem pr_pair {a d : D} {c : Ctx} (hr : Readable .datum (.pair a d)) :
    (a = .sym (asc "quote") ∧ tickCtx c = true ∧ ∃ x, d = .pair x .nil ∧ pr F .datum true c (.pair a d) = 39 :: pr F .datum true c x) ∨
    ∃ c', pr F .datum true c (.pair a d) = 40 :: (pr F .datum true c a ++ pr F .tail true c' d ++ [41]) := by
  obtain ⟨ha, hd, hs⟩ := hr
  by_cases hsp : SpecialHead a
  · obtain ⟨x, rfl⟩ := hs hsp
    rcases hsp with rfl | rfl | rfl | rfl
    · have hh : headOf (.sym (asc "quote")) = .quote := by decide +kernel
      by_cases ht : tickCtx c = true
      · left
        refine ⟨rfl, ht, x, rfl, ?_⟩
        unfold tickCtx at ht
        simp [pr, hh, ht]
      · right
        refine ⟨c, ?_⟩
        unfold tickCtx at ht
        have e : pr F .datum true c (.sym (asc "quote")) = asc "quote" := by
          simp only [pr]
          decide +kernel
        have hq : asc "(quote" = 40 :: asc "quote" := by decide +kernel
        have hp : asc ")" = [41] := by decide +kernel
        rw [e]
        simp [pr, hh, ht, hq, hp]
    · right
      have hh : headOf (.sym (asc "quasiquote")) = .quasi := by decide +kernel
      have e : pr F .datum true c (.sym (asc "quasiquote")) = asc "quasiquote" := by
        simp only [pr]
        decide +kernel
      have hq : asc "(quasiquote" = 40 :: asc "quasiquote" := by decide +kernel
      have hp : asc ")" = [41] := by decide +kernel
      refine ⟨{ c with qq := true }, ?_⟩
      rw [e]
      simp [pr, hh, hq, hp]
    · right
      have hh : headOf (.sym (asc "unquote")) = .unq := by decide +kernel
      have e : pr F .datum true c (.sym (asc "unquote")) = asc "unquote" := by
        simp only [pr]
        decide +kernel
      have hq : asc "(unquote" = 40 :: asc "unquote" := by decide +kernel
      have hp : asc ")" = [41] := by decide +kernel
      refine ⟨{ c with unq := true }, ?_⟩
      rw [e]
      simp [pr, hh, hq, hp]
    · right
      have hh : headOf (.sym (asc "unquote-splicing")) = .splice := by decide +kernel
      have e : pr F .datum true c (.sym (asc "unquote-splicing")) = asc "unquote-splicing" := by
        simp only [pr]
        decide +kernel
      have hq : asc "(unquote-splicing" = 40 :: asc "unquote-splicing" := by decide +kernel
      have hp : asc ")" = [41] := by decide +kernel
      refine ⟨c, ?_⟩
      rw [e]
      simp [pr, hh, hq, hp]
  · right
    refine ⟨c, ?_⟩
    have hh : headOf a = .none := headOf_none hsp (by
      rintro s rfl
      exact (symOk_cstr ha).1)
    simp [pr, hh]

theorem charText_start (c : UInt8) : ∃ t, charText true c = 35 :: t := by
  unfold charText
  simp only [↓reduceIte]
  repeat' split
  all_goals exact ⟨_, rfl⟩

theorem startOk_cons {c : UInt8} (t : Bytes) (h : isSpace c = false ∧ c ≠ 59 ∧ c ≠ 0 ∧ c ≠ 41 ∧ c ≠ 44 ∧ c ≠ 46) : StartOk (c :: t) :=
  ⟨c, t, rfl, h.1, h.2.1, h.2.2.1, h.2.2.2.1, h.2.2.2.2.1, fun hc => absurd hc h.2.2.2.2.2⟩

theorem pr_start (d : D) (c : Ctx) (hr : Readable .datum d) : StartOk (pr F .datum true c d) := by
  cases d with
  | nil => exact startOk_cons _ (by decide)
  | bool b => cases b <;> exact startOk_cons _ (by decide)
  | num n =>
    obtain ⟨e, t, hct, hc, ht⟩ := printD_start n.natAbs
    show StartOk (printLld n)
    unfold printLld
    split
    · exact startOk_cons _ (by decide)
    · rw [hct]
      exact startOk_cons _ ((show ∀ c : UInt8, isDigit c = true → isSpace c = false ∧ c ≠ 59 ∧ c ≠ 0 ∧ c ≠ 41 ∧ c ≠ 44 ∧ c ≠ 46 by decide +kernel) e hc)
  | chr x =>
    obtain ⟨t, ht⟩ := charText_start x
    show StartOk (charText true x)
    rw [ht]
    exact startOk_cons _ (by decide)
  | str s => exact startOk_cons _ (by decide)
  | sym s =>
    show StartOk (symText s)
    rw [(symOk_cstr hr).2.2]
    exact symOk_start hr
  | pair a d =>
    rcases pr_pair (c := c) hr with ⟨_, _, x, _, he⟩ | ⟨c', he⟩
    · rw [he]
      exact startOk_cons _ (by decide)
    · rw [he]
      exact startOk_cons _ (by decide)
  | vec e => exact startOk_cons _ (by decide)
  | flo b => exact absurd hr id
  | ratio n d => exact absurd hr id
  | dot x => exact absurd hr id

theorem tail_end (d : D) (c : Ctx) (rest : Bytes) (hr : Readable .tail d) : isEnd (cur (pr F .tail true c d ++ 41 :: rest)) = true := by
  induction d generalizing c with
  | dot x ih =>
    unfold pr
    split
    · rename_i h
      cases x with
      | pair a d => simp [pr, isEnd, isSpace]
      | _ => simp [properPair] at h
    · have : asc " . " = [32, 46, 32] := by decide +kernel
      rw [this]
      simp [isEnd, isSpace]
  | pair a d => simp [pr, isEnd, isSpace]
  | nil => simp [pr, isEnd]
  | _ => exact absurd hr id

theorem elems_end (d : D) (c : Ctx) (rest : Bytes) : isEnd (cur (pr F (.elems false) true c d ++ 41 :: rest)) = true := by
  cases d <;> simp [pr, isEnd, isSpace]

/-- The statement of the round trip, for each place. -/
def Back (F : FloIO) (d : D) : Prop :=
  (Readable .datum d → ∀ c rest, isEnd (cur rest) = true → lim F .expr (pr F .datum true c d ++ rest) = .ok (canon d) rest) ∧
  (Readable .tail d → ∀ c rest elem, pDot (lim F) elem (skipWs (pr F .tail true c d ++ 41 :: rest)) = .ok (.pair elem (canon d)) rest) ∧
  (Readable .elems d → ∀ c rest, lim F .elems (skipWs (pr F (.elems false) true c d ++ 41 :: rest)) = .ok (canon d) rest) ∧
  (∀ x e, d = .pair x e → Readable .datum x → ∀ c rest, isEnd (cur rest) = true → lim F .expr (pr F .datum true c x ++ rest) = .ok (canon x) rest)

theorem skip_space (t : Bytes) : skipWs (32 :: t) = skipWs t := by
  show skip false (32 :: t) = _
  rw [skip]
  simp [show isSpace 32 = true by decide]

theorem skip_start {s : Bytes} (h : StartOk s) (t : Bytes) : skipWs (s ++ t) = s ++ t := (h.append t).skip

theorem back (d : D) : Back F d := by
  induction d with
  | nil =>
    refine ⟨fun _ c rest h => ?_, fun _ c rest elem => ?_, fun _ c rest => ?_, by simp⟩
    · have : asc "()" = [40, 41] := by decide +kernel
      show lim F .expr (asc "()" ++ rest) = _
      rw [this]
      exact list_empty rest
    · show pDot (lim F) elem (skipWs (41 :: rest)) = _
      rw [skipWs_id (by decide) (by decide), pDot_next (.inr rfl), items_close]
      rfl
    · show lim F .elems (skipWs (41 :: rest)) = _
      rw [skipWs_id (by decide) (by decide), elems_close]
      rfl
  | bool b => exact ⟨fun _ c rest h => read_bool b h, fun h => absurd h id, fun h => absurd h id, by simp⟩
  | num n => exact ⟨fun hr c rest h => read_num hr.1 hr.2 h, fun h => absurd h id, fun h => absurd h id, by simp⟩
  | flo b => exact ⟨fun h => absurd h id, fun h => absurd h id, fun h => absurd h id, by simp⟩
  | ratio n d => exact ⟨fun h => absurd h id, fun h => absurd h id, fun h => absurd h id, by simp⟩
  | chr x => exact ⟨fun hr c rest h => read_chr hr h, fun h => absurd h id, fun h => absurd h id, by simp⟩
  | str s =>
    refine ⟨fun hr c rest h => ?_, fun h => absurd h id, fun h => absurd h id, by simp⟩
    show lim F .expr (strText true s ++ rest) = _
    rw [read_str, rt_ok hr]
    rfl
  | sym s =>
    refine ⟨fun hr c rest h => ?_, fun h => absurd h id, fun h => absurd h id, by simp⟩
    show lim F .expr (symText s ++ rest) = _
    rw [(symOk_cstr hr).2.2, read_sym hr h]
    rfl
  | vec e ih =>
    refine ⟨fun hr c rest h => ?_, fun h => absurd h id, fun h => absurd h id, by simp⟩
    have h1 : asc "#(" = [35, 40] := by decide +kernel
    have h2 : asc ")" = [41] := by decide +kernel
    show lim F .expr (asc "#(" ++ pr F (.elems true) true c e ++ asc ")" ++ rest) = _
    have he : Readable .elems e := hr
    have ihe := ih.2.2.1 he
    simp only [h1, h2, List.cons_append, List.nil_append, List.append_assoc]
    rw [vec_open]
    cases e with
    | nil =>
      have e1 : skipWs (pr F (.elems true) true c .nil ++ 41 :: rest) = 41 :: rest := skipWs_id (by decide) (by decide)
      rw [e1]
      simp [canon]
    | pair a d =>
      have e1 : pr F (.elems true) true c (.pair a d) ++ 41 :: rest = pr F .datum true c a ++ (pr F (.elems false) true c d ++ 41 :: rest) := by
        simp [pr]
      have e2 : pr F (.elems false) true c (.pair a d) ++ 41 :: rest = 32 :: (pr F .datum true c a ++ (pr F (.elems false) true c d ++ 41 :: rest)) := by
        simp [pr]
      have hst := pr_start (F := F) a c he.1
      have hx := ihe c rest
      rw [e2, skip_space, skip_start hst] at hx
      rw [e1, skip_start hst, hx]
      obtain ⟨_, h41, _⟩ := (hst.append (pr F (.elems false) true c d ++ 41 :: rest)).cur
      rw [if_neg (by simpa using h41)]
      rfl
    | _ => exact absurd he id
  | dot x ih =>
    refine ⟨fun h => absurd h id, fun hr c rest elem => ?_, fun h => absurd h id, by simp⟩
    have hr : Readable .datum x := hr
    unfold pr canon
    split
    · rename_i hp
      have ht : Readable .tail x := by
        cases x with
        | pair a d => exact ⟨hr.1, hr.2.1⟩
        | _ => simp [properPair] at hp
      exact ih.2.1 ht c rest elem
    · have : asc " . " = [32, 46, 32] := by decide +kernel
      rw [this]
      have hst := pr_start (F := F) x c hr
      simp only [List.cons_append, List.nil_append]
      rw [skip_space, skipWs_id (by decide) (by decide)]
      unfold pDot
      simp only [cur_cons, beq_self_eq_true, ↓reduceIte, look_one, adv_one]
      refine (if_neg (by decide +kernel)).trans ?_
      rw [skip_space, skip_start hst, elem_read' (hst.append _), ih.1 hr c (41 :: rest) (by simp [isEnd])]
      show close _ (skipWs (41 :: rest)) = _
      rw [skipWs_id (by decide) (by decide)]
      simp [close]
  | pair a d iha ihd =>
    refine ⟨fun hr c rest h => ?_, fun hr c rest elem => ?_, fun hr c rest => ?_, fun x e he hx c rest h => ?_⟩
    · rcases pr_pair (F := F) (c := c) hr with ⟨rfl, _, x, rfl, he⟩ | ⟨c', he⟩
      · rw [he]
        have hx : Readable .datum x := hr.2.1.1
        have hst := pr_start (F := F) x c hx
        have hnil : lim F .expr (pr F .datum true c x ++ rest) = .ok (canon x) rest := ihd.2.2.2 x .nil rfl hx c rest h
        rw [List.cons_append, quote_read (hst.append rest) hnil]
        rfl
      · rw [he]
        have hst := pr_start (F := F) a c hr.1
        have e1 : 40 :: (pr F .datum true c a ++ pr F .tail true c' d ++ [41]) ++ rest =
            40 :: (pr F .datum true c a ++ (pr F .tail true c' d ++ 41 :: rest)) := by simp
        rw [e1, list_open (skip_start hst _) (hst.append _).cur.2.1, items_elem (hst.append _) (iha.1 hr.1 c _ (tail_end d c' rest hr.2.1)),
          ihd.2.1 hr.2.1]
        rfl
    · have hst := pr_start (F := F) a c hr.1
      have e1 : pr F .tail true c (.pair a d) ++ 41 :: rest = 32 :: (pr F .datum true c a ++ (pr F .tail true c d ++ 41 :: rest)) := by
        simp [pr]
      rw [e1, skip_space, skip_start hst, pDot_next (.inl (hst.append _)), items_elem (hst.append _) (iha.1 hr.1 c _ (tail_end d c rest hr.2)),
        ihd.2.1 hr.2]
      rfl
    · have hst := pr_start (F := F) a c hr.1
      have e1 : pr F (.elems false) true c (.pair a d) ++ 41 :: rest = 32 :: (pr F .datum true c a ++ (pr F (.elems false) true c d ++ 41 :: rest)) := by
        simp [pr]
      rw [e1, skip_space, skip_start hst, elems_elem (hst.append _) (iha.1 hr.1 c _ (elems_end d c rest)), ihd.2.2.1 hr.2]
      rfl
    · injection he with h1 h2
      subst h1
      exact iha.1 hx c rest h

theorem norm_canon (d : D) : norm (canon d) = norm d := by
  induction d with
  | pair a d iha ihd => simp [canon, norm, iha, ihd]
  | vec e ih => simp [canon, norm, ih]
  | dot x ih =>
    unfold canon
    split
    · rename_i h
      cases x with
      | pair a d =>
        rw [ih]
        simp [norm]
      | _ => simp [properPair] at h
    · simp [norm, ih]
  | _ => rfl

theorem canon_plain {d : D} (h : Plain d) : canon d = d := by
  induction d with
  | pair a d iha ihd => simp [canon, iha h.1, ihd h.2]
  | vec e ih => simp [canon, ih h]
  | dot x ih =>
    unfold canon
    rw [if_neg, ih h.1]
    intro hp
    cases x with
    | pair a d => exact h.2 a d rfl
    | _ => simp [properPair] at hp
  | _ => rfl

end Pscm.Rd
