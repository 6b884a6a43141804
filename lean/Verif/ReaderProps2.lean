import Verif.ReaderProps
/-!
# C87: the grammar of data, with abbreviations

`Written F k t d` describes, independently of the reader, which texts denote which data: atoms, lists with and without a dotted tail, vectors,
and the abbreviations `'x`, `` `x ``, `,x` and `,@x`, nested to any depth, with white space and comments where they are allowed.
-/
namespace Pscm
open Rd Rd.Spec
variable {F : FloIO}

/-- What a text stands for: one datum, the elements of a list, or the elements of a vector. -/
inductive TextKind | one | list | vector
  deriving DecidableEq

/-- The two-element list `(name x)`. -/
def twoList (name : String) (x : D) : D := .pair (.sym (asc name)) (.pair x .nil)

/-- The first byte of the text is not `c`. -/
def NotFirst (c : UInt8) (t : Bytes) : Prop := ∀ u, t ≠ c :: u

/-- Two texts may follow each other: there is a blank between them, or nothing follows, or the second is a list. -/
def Apart (w s : Bytes) : Prop := w ≠ [] ∨ s = [] ∨ ∃ u, s = 40 :: u

/-- The texts of data.  The blank after a quotation mark needs a datum that is not an unquotation, and `,@` is not followed by a comma
(`c87_counterexample`). -/
inductive Written (F : FloIO) : TextKind → Bytes → D → Prop
  | atom {t d} : Token F t d → Written F .one t d
  | quote {w t d} : Blank w → Written F .one t d → (w = [] ∨ NotFirst 44 t) → Written F .one (39 :: (w ++ t)) (twoList "quote" d)
  | quasi {w t d} : Blank w → Written F .one t d → (w = [] ∨ NotFirst 44 t) → Written F .one (96 :: (w ++ t)) (twoList "quasiquote" d)
  | unquote {w t d} : Blank w → Written F .one t d → NotFirst 64 (w ++ t) → Written F .one (44 :: (w ++ t)) (twoList "unquote" d)
  | splicing {w t d} : Blank w → Written F .one t d → NotFirst 44 t → Written F .one (44 :: 64 :: (w ++ t)) (twoList "unquote-splicing" d)
  | list {w s d} : Blank w → Written F .list s d → Written F .one (40 :: (w ++ (s ++ [41]))) d
  | vector {w s d} : Blank w → Written F .vector s d → Written F .one (35 :: 40 :: (w ++ (s ++ [41]))) (.vec d)
  | listEnd : Written F .list [] .nil
  | listNext {t d w s ds} : Written F .one t d → Blank w → Written F .list s ds → Apart w s → Written F .list (t ++ (w ++ s)) (.pair d ds)
  | dotted {t d w w1 t1 d1 w2} : Written F .one t d → Blank w → w ≠ [] → Blank w1 → w1 ≠ [] → Written F .one t1 d1 → Blank w2 →
      Written F .list (t ++ (w ++ 46 :: (w1 ++ (t1 ++ w2)))) (.pair d (.dot d1))
  | vecEnd : Written F .vector [] .nil
  | vecNext {t d w s ds} : Written F .one t d → Blank w → Written F .vector s ds → Apart w s → Written F .vector (t ++ (w ++ s)) (.pair d ds)

/-! ## The reader on such texts -/

namespace Rd

/-- A good first byte: it begins a datum or a comma form. -/
def Start2 (t : Bytes) : Prop := ∃ c u, t = c :: u ∧ isSpace c = false ∧ c ≠ 59 ∧ c ≠ 0 ∧ c ≠ 41 ∧ c ≠ 46

/-- Reading in the position of an element. -/
def ReadsAt (F : FloIO) (s : Bytes) (d : D) (r : Bytes) : Prop :=
  (cur s = 44 ∧ lim F .unq s = .ok d r) ∨ (cur s ≠ 44 ∧ lim F .expr s = .ok d r)

theorem Start2.skip {t : Bytes} (h : Start2 t) (r : Bytes) : skipWs (t ++ r) = t ++ r := by
  obtain ⟨c, u, rfl, h1, h2, _⟩ := h
  exact skipWs_id h1 h2

theorem Start2.ok {t : Bytes} (h : Start2 t) (h44 : cur t ≠ 44) : StartOk t := by
  obtain ⟨c, u, rfl, h1, h2, h3, h4, h5⟩ := h
  exact ⟨c, u, rfl, h1, h2, h3, h4, h44, fun hc => absurd hc h5⟩

theorem Start2.append {t : Bytes} (h : Start2 t) (r : Bytes) : Start2 (t ++ r) := by
  obtain ⟨c, u, rfl, h⟩ := h
  exact ⟨c, u ++ r, rfl, h⟩

theorem ReadsAt.ref {s r : Bytes} {d : D} (h : ReadsAt F s d r) (hs : Start2 s) :
    Rd.orElse (lim F .quote s) (Rd.orElse (lim F .unq s) (lim F .expr s)) = .ok d r ∧
    Rd.orElse (lim F .unq s) (lim F .expr s) = .ok d r := by
  rcases h with ⟨h1, h2⟩ | ⟨h1, h2⟩
  · rw [lim_quote_null (by rw [h1]; decide), h2]
    exact ⟨rfl, rfl⟩
  · have := hs.ok h1
    rw [elem_read this, elem_read' this, h2]
    exact ⟨rfl, rfl⟩

theorem expr_skip (s : Bytes) : lim F .expr (skipWs s) = lim F .expr s := by
  rw [lim_expr, lim_expr, pExpr, pExpr, skipWs_skip]

theorem expr_blank {w : Bytes} (h : Blank w) (s : Bytes) : lim F .expr (w ++ s) = lim F .expr s := by
  rw [← expr_skip, skipWs_blank h, expr_skip]

theorem blank_cur {w : Bytes} (h : Blank w) (h0 : w ≠ []) (s : Bytes) : ∃ c u, w ++ s = c :: u ∧ c ∈ [(32 : UInt8), 9, 10, 11, 12, 13, 59] := by
  cases h with
  | nil => exact absurd rfl h0
  | @space c w hc _ => exact ⟨c, w ++ s, rfl, (show ∀ c : UInt8, c ∈ [(32 : UInt8), 9, 10, 11, 12, 13] → c ∈ [(32 : UInt8), 9, 10, 11, 12, 13, 59] by decide +kernel) c hc⟩
  | comment => exact ⟨59, _, rfl, by decide⟩

/-- The text after a quotation mark. -/
theorem marked {w t rest : Bytes} {d : D} (hw : Blank w) (hs : Start2 t) (hr : ReadsAt F (t ++ rest) d rest) (hc : w = [] ∨ NotFirst 44 t) :
    Rd.orElse (lim F .unq (w ++ (t ++ rest))) (lim F .expr (w ++ (t ++ rest))) = .ok d rest := by
  by_cases hw0 : w = []
  · subst hw0
    exact (hr.ref (hs.append _)).2
  · obtain ⟨c, u, he, hcu⟩ := blank_cur hw hw0 (t ++ rest)
    have h44 : cur (w ++ (t ++ rest)) ≠ 44 := by
      rw [he]
      rintro (rfl : c = 44)
      exact absurd hcu (by decide)
    rw [lim_unq_null h44, expr_blank hw]
    rcases hr with ⟨h1, h2⟩ | ⟨h1, h2⟩
    · obtain ⟨c', u', rfl, _⟩ := hs
      have : c' = 44 := h1
      subst this
      exact absurd rfl ((hc.resolve_left hw0) u')
    · rw [h2]; rfl

theorem ne44 {c : UInt8} {u : Bytes} (h : c ≠ 44) : cur (c :: u) ≠ 44 := h

theorem quoteMark {w t rest : Bytes} {d : D} (hw : Blank w) (hs : Start2 t) (hr : ReadsAt F (t ++ rest) d rest) (hc : w = [] ∨ NotFirst 44 t) :
    lim F .quote (39 :: (w ++ (t ++ rest))) = .ok (form "quote" d) rest := by
  have hm := marked hw hs hr hc
  rw [lim_eq]
  show pQuote _ _ = _
  unfold pQuote
  simp only [cur_cons, beq_self_eq_true, ↓reduceIte, adv_one]
  rw [hm]
  split
  · rename_i h35
    obtain ⟨s, hs'⟩ := cur_beq h35 (by decide)
    rw [hs'] at hm ⊢
    rw [look_one]
    split
    · rename_i h92
      obtain ⟨u, rfl⟩ := cur_beq h92 (by decide)
      rw [lim_unq_null (ne44 (by decide))] at hm
      have hm : lim F .expr (35 :: 92 :: u) = .ok d rest := hm
      rw [expr_char] at hm
      cases hp : pChar (35 :: 92 :: u) with
      | ok d' r' =>
        rw [hp] at hm
        injection hm with h1 h2
        subst h1 h2
        rfl
      | _ =>
        rw [hp] at hm
        cases hm
    · rfl
  · rfl

theorem expr_mark39 (s : Bytes) : lim F .expr (39 :: s) = lim F .quote (39 :: s) := by
  rw [lim_expr]
  unfold pExpr
  rw [skipWs_id (by decide) (by decide)]
  rfl

theorem quasiMark {w t rest : Bytes} {d : D} (hw : Blank w) (hs : Start2 t) (hr : ReadsAt F (t ++ rest) d rest) (hc : w = [] ∨ NotFirst 44 t) :
    lim F .expr (96 :: (w ++ (t ++ rest))) = .ok (form "quasiquote" d) rest := by
  have hm := marked hw hs hr hc
  rw [lim_expr]
  unfold pExpr
  rw [skipWs_id (by decide) (by decide)]
  have e : ∀ (a b c f : R), (if (96 : UInt8) == 0 then a else if (96 : UInt8) == 39 then b else if (96 : UInt8) == 96 then c else f) = c := by
    intros; rfl
  refine (e _ _ _ _).trans ?_
  rw [lim_eq]
  show pQuasi _ _ = _
  unfold pQuasi
  simp only [cur_cons, beq_self_eq_true, ↓reduceIte, adv_one]
  rw [hm]
  rfl

theorem unqMark {w t rest : Bytes} {d : D} (hw : Blank w) (hs : Start2 t) (hr : ReadsAt F (t ++ rest) d rest) (hc : NotFirst 64 (w ++ t)) :
    lim F .unq (44 :: (w ++ (t ++ rest))) = .ok (form "unquote" d) rest := by
  rw [lim_eq]
  show pUnq _ _ = _
  unfold pUnq
  simp only [cur_cons, beq_self_eq_true, ↓reduceIte, adv_one]
  have hne : ∃ c u, w ++ (t ++ rest) = c :: u ∧ c ≠ 64 := by
    rw [← List.append_assoc]
    cases hq : w ++ t with
    | nil =>
      obtain ⟨c, u, rfl, _⟩ := hs
      simp at hq
    | cons c u => exact ⟨c, u ++ rest, rfl, fun h => hc u (by rw [hq, h])⟩
  obtain ⟨c, u, he, hc64⟩ := hne
  rw [he, look_one, ← he]
  rw [if_neg (by rw [he]; simpa using hc64)]
  rw [skipWs_blank hw, hs.skip]
  have hh := hr
  rcases hr with ⟨h1, h2⟩ | ⟨h1, h2⟩
  · have e39 : (cur (t ++ rest) == 39) = false := by rw [h1]; rfl
    have e44 : (cur (t ++ rest) == 44) = true := by rw [h1]; rfl
    simp only [e39, e44, Bool.false_eq_true, ↓reduceIte, h2]
    rfl
  · have e44 : (cur (t ++ rest) == 44) = false := by simpa using h1
    split
    · have hx := (hs.append rest).ok h1
      rename_i h39
      have := hx.quote (F := F)
      rw [if_pos h39] at this
      rw [this, h2]; rfl
    · simp only [e44, Bool.false_eq_true, ↓reduceIte, h2]
      rfl

theorem spliceMark {w t rest : Bytes} {d : D} (hw : Blank w) (hs : Start2 t) (hr : ReadsAt F (t ++ rest) d rest) (hc : NotFirst 44 t) :
    lim F .unq (44 :: 64 :: (w ++ (t ++ rest))) = .ok (form "unquote-splicing" d) rest := by
  rw [lim_eq]
  show pUnq _ _ = _
  unfold pUnq
  simp only [cur_cons, beq_self_eq_true, ↓reduceIte, look_one, adv_two]
  rw [expr_blank hw]
  rcases hr with ⟨h1, _⟩ | ⟨_, h2⟩
  · obtain ⟨c', u', rfl, _⟩ := hs
    have : c' = 44 := h1
    subst this
    exact absurd rfl (hc u')
  · rw [h2]; rfl

/-- What the reader does with the texts of each kind. -/
def Meaning (F : FloIO) (t : Bytes) (d : D) : TextKind → Prop
  | .one => Start2 t ∧ ∀ rest, Ends rest → ReadsAt F (t ++ rest) d rest
  | .list => (t = [] ∨ Start2 t) ∧ ∀ rest, lim F .items (skipWs (t ++ 41 :: rest)) = .ok d rest
  | .vector => (t = [] ∨ Start2 t) ∧ ∀ rest, lim F .elems (skipWs (t ++ 41 :: rest)) = .ok d rest

theorem start_cons {c : UInt8} (u : Bytes) (h : isSpace c = false ∧ c ≠ 59 ∧ c ≠ 0 ∧ c ≠ 41 ∧ c ≠ 46) : Start2 (c :: u) := ⟨c, u, rfl, h⟩

theorem apart_ends {w s rest : Bytes} (hw : Blank w) (h : Apart w s) : Ends (w ++ (s ++ 41 :: rest)) := by
  by_cases hw0 : w = []
  · subst hw0
    rcases h with h | rfl | ⟨u, rfl⟩
    · exact absurd rfl h
    · exact .inr ⟨41, rest, rfl, by decide⟩
    · exact .inr ⟨40, _, rfl, by decide⟩
  · exact Blank.ends hw hw0 _

theorem items_at {s r1 : Bytes} {d : D} (h : Start2 s) (hr : ReadsAt F s d r1) : lim F .items s = pDot (lim F) d (skipWs r1) := by
  rw [lim_eq]
  show pItems _ _ = _
  unfold pItems
  rw [(hr.ref h).1]
  obtain ⟨c, t, rfl, h1, h2, h3, h4, h5⟩ := h
  rw [if_neg (by simp [h3, h4])]
  rfl

theorem elems_at {s r1 : Bytes} {d : D} (h : Start2 s) (hr : ReadsAt F s d r1) :
    lim F .elems s = need (lim F .elems (skipWs r1)) fun e r2 => .ok (.pair d e) r2 := by
  rw [lim_eq]
  show pElems _ _ = _
  unfold pElems
  rw [(hr.ref h).2]
  obtain ⟨c, t, rfl, h1, h2, h3, h4, h5⟩ := h
  rw [if_neg (by simp [h3, h4])]
  rfl

theorem pDot_at {elem : D} {s : Bytes} (h : cur s ≠ 46) :
    pDot (lim F) elem s = need (lim F .items s) fun d r' => .ok (.pair elem d) r' := by
  unfold pDot
  simp [h]

theorem cur_rest {s rest : Bytes} (h : s = [] ∨ Start2 s) : skipWs (s ++ 41 :: rest) = s ++ 41 :: rest ∧ cur (s ++ 41 :: rest) ≠ 46 := by
  rcases h with rfl | h
  · exact ⟨skipWs_id (by decide) (by decide), (show (41 : UInt8) ≠ 46 by decide)⟩
  · refine ⟨h.skip _, ?_⟩
    obtain ⟨c, u, rfl, _, _, _, _, h5⟩ := h
    exact h5

theorem expr_open (s : Bytes) : lim F .expr (40 :: s) = lim F .list (40 :: s) := by
  rw [lim_expr]
  unfold pExpr
  rw [skipWs_id (by decide) (by decide)]
  rfl

theorem written_meaning {k : TextKind} {t : Bytes} {d : D} (h : Written F k t d) : Meaning F t d k := by
  induction h with
  | atom ht =>
    obtain ⟨c, u, rfl, hc⟩ := ht.first
    have hc' := (show ∀ c : UInt8, c ∉ [(32 : UInt8), 9, 10, 11, 12, 13, 59, 0, 41, 44, 46] →
      (isSpace c = false ∧ c ≠ 59 ∧ c ≠ 0 ∧ c ≠ 41 ∧ c ≠ 46) ∧ c ≠ 44 by decide +kernel) c hc
    refine ⟨start_cons u hc'.1, fun rest he => .inr ⟨hc'.2, ?_⟩⟩
    rw [← parseExpr_lim]
    exact ht.reads rest he
  | quote hw _ hc ih =>
    refine ⟨start_cons _ (by decide), fun rest he => .inr ⟨ne44 (by decide), ?_⟩⟩
    rw [List.cons_append, expr_mark39, List.append_assoc]
    exact quoteMark hw ih.1 (ih.2 rest he) hc
  | quasi hw _ hc ih =>
    refine ⟨start_cons _ (by decide), fun rest he => .inr ⟨ne44 (by decide), ?_⟩⟩
    rw [List.cons_append, List.append_assoc]
    exact quasiMark hw ih.1 (ih.2 rest he) hc
  | unquote hw _ hc ih =>
    refine ⟨start_cons _ (by decide), fun rest he => .inl ⟨rfl, ?_⟩⟩
    rw [List.cons_append, List.append_assoc]
    exact unqMark hw ih.1 (ih.2 rest he) hc
  | splicing hw _ hc ih =>
    refine ⟨start_cons _ (by decide), fun rest he => .inl ⟨rfl, ?_⟩⟩
    rw [List.cons_append, List.cons_append, List.append_assoc]
    exact spliceMark hw ih.1 (ih.2 rest he) hc
  | @list w s d hw _ ih =>
    refine ⟨start_cons _ (by decide), fun rest he => .inr ⟨ne44 (by decide), ?_⟩⟩
    have hi := ih.2 rest
    rw [List.cons_append, List.append_assoc, List.append_assoc, List.singleton_append, expr_open, lim_eq]
    show pList _ _ = _
    unfold pList
    simp only [cur_cons, beq_self_eq_true, ↓reduceIte, adv_one]
    rw [skipWs_blank hw]
    split
    · rename_i h
      obtain ⟨t, ht⟩ := cur_beq h (by decide)
      rw [ht] at hi ⊢
      rw [items_close] at hi
      rw [adv_one]
      exact hi ▸ rfl
    · exact hi
  | @vector w s d hw _ ih =>
    refine ⟨start_cons _ (by decide), fun rest he => .inr ⟨ne44 (by decide), ?_⟩⟩
    have hi := ih.2 rest
    rw [List.cons_append, List.cons_append, List.append_assoc, List.append_assoc, List.singleton_append, vec_open, skipWs_blank hw]
    split
    · rename_i h
      obtain ⟨t, ht⟩ := cur_beq h (by decide)
      rw [ht] at hi ⊢
      rw [elems_close] at hi
      rw [adv_one]
      injection hi with h1 h2
      rw [h1, h2]
    · rw [hi]; rfl
  | listEnd =>
    refine ⟨.inl rfl, fun rest => ?_⟩
    rw [List.nil_append, skipWs_id (by decide) (by decide), items_close]
  | @listNext t d w s ds _ hw _ ha ih ihs =>
    refine ⟨.inr (ih.1.append _), fun rest => ?_⟩
    rw [List.append_assoc, ih.1.skip, List.append_assoc, items_at (ih.1.append _) (ih.2 _ (apart_ends hw ha)), skipWs_blank hw]
    have hr := cur_rest (rest := rest) ihs.1
    rw [pDot_at (by rw [hr.1]; exact hr.2), ihs.2]
    rfl
  | @dotted t d w w1 t1 d1 w2 _ hw h0 hw1 h10 _ hw2 ih ih1 =>
    refine ⟨.inr (ih.1.append _), fun rest => ?_⟩
    have e : t ++ (w ++ 46 :: (w1 ++ (t1 ++ w2))) ++ 41 :: rest = t ++ (w ++ (46 :: (w1 ++ (t1 ++ (w2 ++ 41 :: rest))))) := by simp
    rw [e, ih.1.skip, items_at (ih.1.append _) (ih.2 _ (Blank.ends hw h0 _)), skipWs_blank hw, skipWs_id (by decide) (by decide)]
    unfold pDot
    obtain ⟨c, u, hcu, hc⟩ := blank_cur hw1 h10 (t1 ++ (w2 ++ 41 :: rest))
    have hd : dotSym c = false := (show ∀ c : UInt8, c ∈ [(32 : UInt8), 9, 10, 11, 12, 13, 59] → dotSym c = false by decide +kernel) c hc
    have h41 : skipWs (41 :: rest) = 41 :: rest := skipWs_id (by decide) (by decide)
    have hx : Ends (w2 ++ 41 :: rest) := by
      have := apart_ends (s := []) (rest := rest) hw2 (.inr (.inl rfl))
      exact this
    have hr1 := ((ih1.2 _ hx).ref (ih1.1.append _)).2
    simp only [cur_cons, beq_self_eq_true, ↓reduceIte, adv_one]
    rw [hcu, look_one, cur_cons, hd, ← hcu, skipWs_blank hw1, ih1.1.skip, hr1]
    simp only [Bool.false_eq_true, ↓reduceIte, need]
    rw [skipWs_blank hw2, h41]
    rfl
  | vecEnd =>
    refine ⟨.inl rfl, fun rest => ?_⟩
    rw [List.nil_append, skipWs_id (by decide) (by decide), elems_close]
  | @vecNext t d w s ds _ hw _ ha ih ihs =>
    refine ⟨.inr (ih.1.append _), fun rest => ?_⟩
    rw [List.append_assoc, ih.1.skip, List.append_assoc, elems_at (ih.1.append _) (ih.2 _ (apart_ends hw ha)), skipWs_blank hw, ihs.2]
    rfl

end Rd

/-- Every text of the grammar that does not start with a comma is read as the datum it denotes, wherever it stands (only a delimiter may
follow). -/
theorem c87_grammar {t rest : Bytes} {d : D} (h : Written F .one t d) (hc : NotFirst 44 t) (he : Ends rest) :
    parseExpr F (t ++ rest) = .ok d rest := by
  obtain ⟨hs, hr⟩ := written_meaning h
  rw [parseExpr_lim]
  rcases hr rest he with ⟨h1, _⟩ | ⟨_, h2⟩
  · obtain ⟨c, u, rfl, _⟩ := hs
    have : c = 44 := h1
    subst this
    exact absurd rfl (hc u)
  · exact h2

/-- As a whole program text, with blanks around it. -/
theorem c87_whole {w t e : Bytes} {d : D} (hw : Blank w) (h : Written F .one t d) (hc : NotFirst 44 t) (he : Blank e) :
    parse F (w ++ (t ++ e)) = .ok d [] := by
  have he' : Ends e := by
    cases e with
    | nil => exact .inl rfl
    | cons c u => have := Blank.ends he (by simp) []; rwa [List.append_nil] at this
  rw [(c69_blank hw _).2]
  unfold parse
  rw [c87_grammar h hc he']
  have h2 : skipWs e = [] := by
    have := skipWs_blank he []
    rw [List.append_nil] at this
    rw [this]; rfl
  simp only [need, h2]
  rfl

/-- `` `(x ,x ,@y . ,'z) `` is a text of the grammar. -/
example : ∃ tx ty tz : D,
    Written Demo.F0 .one (asc "`(x ,x ,@y . ,'z)")
      (twoList "quasiquote" (.pair tx (.pair (twoList "unquote" tx) (.pair (twoList "unquote-splicing" ty)
        (.dot (twoList "unquote" (twoList "quote" tz))))))) := by
  have tok : ∀ c : UInt8, letter c → ∃ d', Token Demo.F0 [c] d' := by
    intro c hc
    have hs : SymOk [c] := Demo.symOk_name (by simp) (by simpa using hc)
    obtain ⟨d', h, _⟩ := c69_tokens (F := Demo.F0) (d := .sym [c]) hs (by
      intro t h
      injection h with h
      injection h with h _
      subst h
      unfold letter at hc
      revert hc
      decide)
    have e : print Demo.F0 true (.sym [c]) = [c] := (symOk_cstr hs).2.2
    rw [e] at h
    exact ⟨d', h⟩
  obtain ⟨tx, hx⟩ := tok 120 (by unfold letter; decide)
  obtain ⟨ty, hy⟩ := tok 121 (by unfold letter; decide)
  obtain ⟨tz, hz⟩ := tok 122 (by unfold letter; decide)
  have sp : Blank [32] := .space (by decide) .nil
  have nf : ∀ (c d : UInt8) (u : Bytes), d ≠ c → NotFirst c (d :: u) := fun c d u h v hh => by injection hh with h1 _; exact h h1
  refine ⟨tx, ty, tz, ?_⟩
  have e : asc "`(x ,x ,@y . ,'z)" =
      96 :: ([] ++ (40 :: ([] ++ (([120] ++ ([32] ++ ((44 :: ([] ++ [120])) ++ ([32] ++ ((44 :: 64 :: ([] ++ [121])) ++ ([32] ++ 46 :: ([32] ++ ((44 :: ([] ++ (39 :: ([] ++ [122])))) ++ [])))))))) ++ [41])))) := by decide +kernel
  rw [e]
  exact .quasi .nil (.list .nil (.listNext (.atom hx) sp (.listNext (.unquote .nil (.atom hx) (nf _ _ _ (by decide))) sp
    (.dotted (.splicing .nil (.atom hy) (nf _ _ _ (by decide))) sp (by simp) sp (by simp)
      (.unquote .nil (.quote .nil (.atom hz) (.inl rfl)) (nf _ _ _ (by decide))) .nil) (.inl (by simp))) (.inl (by simp)))) (.inl rfl)

/-- What the grammar leaves out is an error: an unquotation outside a list or an abbreviation, a blank between a quotation mark and a comma,
and a comma after `,@`. -/
theorem c87_counterexample :
    parse Demo.F0 (asc ",x") = .err ∧ parse Demo.F0 (asc "(' ,x)") = .err ∧ parse Demo.F0 (asc "(,@,x)") = .err := by decide +kernel

end Pscm
