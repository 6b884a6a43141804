import Verif.PortProps
/-! # Lemmas for C80: the text collected by `read` -/
namespace Pscm.Port
open Rd Rd.Spec
variable {F : FloIO}

/-- The inside of a string literal: no quotation mark except after a backslash. -/
inductive StrBody : Bytes → Prop
  | nil : StrBody []
  | chr {c b} : c ≠ 34 → c ≠ 92 → StrBody b → StrBody (c :: b)
  | esc {c b} : StrBody b → StrBody (92 :: c :: b)

/-- Text in which parentheses are balanced and string literals complete. -/
inductive Bal : Bytes → Prop
  | nil : Bal []
  | plain {c t} : c ∉ [40, 41, 34] → Bal t → Bal (c :: t)
  | str {b t} : StrBody b → Bal t → Bal (34 :: (b ++ 34 :: t))
  | nest {s t} : Bal s → Bal t → Bal (40 :: (s ++ 41 :: t))

/-- Text without parentheses and without white space outside of string literals. -/
inductive Flat : Bytes → Prop
  | nil : Flat []
  | plain {c t} : c ∉ [40, 41, 34, 32, 9, 10, 13] → Flat t → Flat (c :: t)
  | str {b t} : StrBody b → Flat t → Flat (34 :: (b ++ 34 :: t))

/-- White space and comments, as skipped in front of an expression. -/
inductive Lead : Bytes → Prop
  | nil : Lead []
  | space {c w} : c ∈ [32, 9, 10, 11, 12, 13] → Lead w → Lead (c :: w)
  | comment {t e w} : (∀ c ∈ t, c ≠ 10 ∧ c ≠ 13) → e ∈ [10, 13] → Lead w → Lead (59 :: (t ++ e :: w))

/-- Put the text in front. -/
def Got.pre (s : Bytes) : Got → Got
  | .eof => .eof
  | .text b r => .text (s ++ b) r

theorem Got.pre_nil (g : Got) : g.pre [] = g := by cases g <;> rfl
theorem Got.push_pre (c : UInt8) (s : Bytes) (g : Got) : (g.pre s).push c = g.pre (c :: s) := by cases g <;> rfl
theorem Got.pre_pre (s t : Bytes) (g : Got) : (g.pre t).pre s = g.pre (s ++ t) := by
  cases g
  · rfl
  · simp [Got.pre]

theorem collect_body {b : Bytes} (h : StrBody b) : ∀ (pos : Nat) (depth : Int) (rest : Bytes), pos + b.length < 4095 →
    collect pos depth true false (b ++ 34 :: rest) = (collect (pos + b.length + 1) depth false false rest).pre (b ++ [34]) := by
  induction h with
  | nil =>
    intro pos depth rest hl
    simp only [List.length_nil, Nat.add_zero] at hl
    rw [List.nil_append, collect, if_pos hl, if_neg (by decide), if_neg (by decide), if_pos (by decide)]
    show Got.push 34 (collect (pos + 1) depth false false rest) = Got.pre [34] (collect (pos + 1) depth false false rest)
    cases collect (pos + 1) depth false false rest <;> rfl
  | chr h1 h2 hb ih =>
    intro pos depth rest hl
    simp only [List.length_cons] at hl
    rw [List.cons_append, collect, if_pos (by omega), if_neg (by decide), if_neg (by simp [h2]), if_neg (by simp [h1]), if_pos rfl,
      ih _ _ _ (by omega), Got.push_pre]
    simp [Nat.add_assoc, Nat.add_comm 1]
  | esc hb ih =>
    intro pos depth rest hl
    simp only [List.length_cons] at hl
    rw [List.cons_append, List.cons_append, collect, if_pos (by omega), if_neg (by decide), if_pos (by decide), collect, if_pos (by omega), if_pos rfl,
      ih _ _ _ (by omega), Got.push_pre, Got.push_pre]
    simp only [List.length_cons, List.cons_append]
    congr 2
    omega

theorem collect_str {b : Bytes} (h : StrBody b) (pos : Nat) (depth : Int) (rest : Bytes) (hl : pos + b.length + 1 < 4095) :
    collect pos depth false false (34 :: (b ++ 34 :: rest)) = (collect (pos + b.length + 2) depth false false rest).pre (34 :: (b ++ [34])) := by
  rw [collect, if_pos (by omega), if_neg (by decide), if_neg (by decide), if_pos (by decide), Bool.not_false,
    collect_body h _ _ _ (by omega), Got.push_pre]
  congr 2
  omega

theorem collect_bal {s : Bytes} (h : Bal s) : ∀ (pos : Nat) (depth : Int) (rest : Bytes), 1 ≤ depth → pos + s.length ≤ 4095 →
    collect pos depth false false (s ++ rest) = (collect (pos + s.length) depth false false rest).pre s := by
  induction h with
  | nil => intro pos depth rest _ _; rw [Got.pre_nil]; rfl
  | plain hc ht ih =>
    intro pos depth rest hd hl
    simp only [List.length_cons] at hl
    simp only [List.mem_cons, List.not_mem_nil, or_false, not_or] at hc
    obtain ⟨h1, h2, h3⟩ := hc
    rw [List.cons_append, collect, if_pos (by omega), if_neg (by decide), if_neg (by simp), if_neg (by simpa using h3), if_neg (by decide),
      if_neg (by simpa using h1), if_neg (by simpa using h2), if_neg (by omega), ih _ _ _ hd (by omega), Got.push_pre]
    simp [Nat.add_assoc, Nat.add_comm 1]
  | @str b t hb ht ih =>
    intro pos depth rest hd hl
    simp only [List.length_cons, List.length_append] at hl
    have e : 34 :: (b ++ 34 :: t) ++ rest = 34 :: (b ++ 34 :: (t ++ rest)) := by simp
    rw [e, collect_str hb _ _ _ (by omega), ih _ _ _ hd (by omega), Got.pre_pre]
    have e1 : pos + b.length + 2 + t.length = pos + (34 :: (b ++ 34 :: t)).length := by simp; omega
    have e2 : (34 :: (b ++ [34])) ++ t = 34 :: (b ++ 34 :: t) := by simp
    rw [e1, e2]
  | @nest s t hs ht ihs iht =>
    intro pos depth rest hd hl
    simp only [List.length_cons, List.length_append] at hl
    have e : 40 :: (s ++ 41 :: t) ++ rest = 40 :: (s ++ 41 :: (t ++ rest)) := by simp
    rw [e, collect, if_pos (by omega), if_neg (by decide), if_neg (by decide), if_neg (by decide), if_neg (by decide), if_pos (by decide),
      ihs _ _ _ (by omega) (by omega), collect, if_pos (by omega), if_neg (by decide), if_neg (by decide), if_neg (by decide), if_neg (by decide),
      if_neg (by decide), if_pos (by decide), if_neg (by omega), if_neg (by omega), show depth + 1 - 1 = depth by omega, iht _ _ _ hd (by omega)]
    rw [Got.push_pre, Got.push_pre, Got.pre_pre]
    have e1 : pos + 1 + s.length + 1 + t.length = pos + (40 :: (s ++ 41 :: t)).length := by simp; omega
    rw [e1, List.cons_append]

theorem collect_flat {s : Bytes} (h : Flat s) : ∀ (pos : Nat) (rest : Bytes), pos + s.length ≤ 4095 →
    collect pos 0 false false (s ++ rest) = (collect (pos + s.length) 0 false false rest).pre s := by
  induction h with
  | nil => intro pos rest _; rw [Got.pre_nil]; rfl
  | plain hc ht ih =>
    intro pos rest hl
    simp only [List.length_cons] at hl
    simp only [List.mem_cons, List.not_mem_nil, or_false, not_or] at hc
    obtain ⟨h1, h2, h3, h4, h5, h6, h7⟩ := hc
    rw [List.cons_append, collect, if_pos (by omega), if_neg (by decide), if_neg (by simp), if_neg (by simpa using h3), if_neg (by decide),
      if_neg (by simpa using h1), if_neg (by simpa using h2), if_neg (by simp [h4, h5, h6, h7]), ih _ _ (by omega), Got.push_pre]
    simp [Nat.add_assoc, Nat.add_comm 1]
  | @str b t hb ht ih =>
    intro pos rest hl
    simp only [List.length_cons, List.length_append] at hl
    have e : 34 :: (b ++ 34 :: t) ++ rest = 34 :: (b ++ 34 :: (t ++ rest)) := by simp
    rw [e, collect_str hb _ _ _ (by omega), ih _ _ (by omega), Got.pre_pre]
    have e1 : pos + b.length + 2 + t.length = pos + (34 :: (b ++ 34 :: t)).length := by simp; omega
    have e2 : (34 :: (b ++ [34])) ++ t = 34 :: (b ++ 34 :: t) := by simp
    rw [e1, e2]

/-- A list, possibly after a prefix such as `'` or `#`. -/
theorem collect_list {p s rest : Bytes} (hp : Flat p) (hs : Bal s) (hl : p.length + s.length + 2 ≤ 4095) :
    collect 0 0 false false (p ++ 40 :: (s ++ 41 :: rest)) = .text (p ++ 40 :: (s ++ [41])) rest := by
  rw [collect_flat hp _ _ (by omega), collect, if_pos (by omega), if_neg (by decide), if_neg (by decide), if_neg (by decide), if_neg (by decide),
    if_pos (by decide), collect_bal hs _ _ _ (by omega) (by omega), collect, if_pos (by omega), if_neg (by decide), if_neg (by decide),
    if_neg (by decide), if_neg (by decide), if_neg (by decide), if_pos (by decide), if_neg (by decide), if_pos (by decide)]
  rfl

/-- An atom, up to white space or the end of the text. -/
theorem collect_atom {s rest : Bytes} (hs : Flat s) (hl : s.length < 4095) (hr : rest = [] ∨ ∃ c t, rest = c :: t ∧ c ∈ [32, 9, 10, 13]) :
    collect 0 0 false false (s ++ rest) = .text s rest.tail := by
  rw [collect_flat hs _ _ (by omega)]
  rcases hr with rfl | ⟨c, t, rfl, hc⟩
  · rw [collect, if_pos (by omega), if_pos ⟨rfl, rfl⟩]
    simp [Got.pre]
  · have : c ≠ 34 ∧ c ≠ 40 ∧ c ≠ 41 ∧ (c == 32 || c == 9 || c == 10 || c == 13) = true := by
      simp only [List.mem_cons, List.not_mem_nil, or_false] at hc
      rcases hc with rfl | rfl | rfl | rfl <;> decide
    obtain ⟨h1, h2, h3, h4⟩ := this
    rw [collect, if_pos (by omega), if_neg (by decide), if_neg (by simp), if_neg (by simpa using h1), if_neg (by decide),
      if_neg (by simpa using h2), if_neg (by simpa using h3), if_pos ⟨rfl, h4⟩]
    simp [Got.pre]

theorem skipLead_comment : ∀ (t : Bytes) (e : UInt8) (w : Bytes), (∀ c ∈ t, c ≠ 10 ∧ c ≠ 13) → e ∈ [10, 13] →
    skipLead true (t ++ e :: w) = skipLead false w
  | [], e, w, _, he => by
    simp only [List.mem_cons, List.not_mem_nil, or_false] at he
    rcases he with rfl | rfl <;> simp [skipLead]
  | c :: t, e, w, h, he => by
    obtain ⟨h1, h2⟩ := h c (.head _)
    rw [List.cons_append, skipLead, if_pos rfl, if_neg (by simp [h1, h2])]
    exact skipLead_comment t e w (fun c hc => h c (.tail _ hc)) he

theorem skipLead_lead {w : Bytes} (h : Lead w) (s : Bytes) : skipLead false (w ++ s) = skipLead false s := by
  induction h with
  | nil => rfl
  | space hc _ ih => rw [List.cons_append, skipLead, if_neg (by decide), if_pos (isSpace_iff.2 hc), ih]
  | @comment t e w ht he _ ih =>
    have : 59 :: (t ++ e :: w) ++ s = 59 :: (t ++ e :: (w ++ s)) := by simp
    rw [this, skipLead, if_neg (by decide), if_neg (by decide), if_pos (by decide), skipLead_comment _ _ _ ht he, ih]

theorem skipLead_start {c : UInt8} {t : Bytes} (h1 : isSpace c = false) (h2 : c ≠ 59) : skipLead false (c :: t) = c :: t := by
  rw [skipLead, if_neg (by decide), if_neg (by simp [h1]), if_neg (by simpa using h2)]

/-- The effect of `read` in terms of the bytes that are left. -/
theorem readExpr_text {p : In} {w s b rest : Bytes} (ho : p.closed = false) (hl : left p = w ++ s) (hw : Lead w)
    (hs : ∃ c t, s = c :: t ∧ isSpace c = false ∧ c ≠ 59) (hc : collect 0 0 false false s = .text b rest) (hsuf : rest <:+ s) :
    ∃ p', readExpr F p = (some (parse F b), p') ∧ left p' = rest ∧ p'.closed = false := by
  obtain ⟨c, t, rfl, h1, h2⟩ := hs
  have hd : p.data.drop p.pos = w ++ c :: t := by simpa [left, ho] using hl
  refine ⟨{ p with pos := p.data.length - rest.length }, ?_, ?_, ho⟩
  · unfold readExpr
    rw [if_neg (by simp [ho])]
    dsimp only
    rw [hd, skipLead_lead hw, skipLead_start h1 h2]
    dsimp only
    rw [hc]
  · simp only [left, ho, Bool.false_eq_true, if_false]
    have h3 : rest <:+ p.data := by
      have : rest <:+ p.data.drop p.pos := by rw [hd]; exact hsuf.trans (List.suffix_append _ _)
      exact this.trans (List.drop_suffix _ _)
    exact (List.suffix_iff_eq_drop.1 h3).symm

theorem readExpr_end {p : In} {w : Bytes} (ho : p.closed = false) (hl : left p = w) (hw : skipLead false w = []) :
    ∃ p', readExpr F p = (none, p') ∧ left p' = [] ∧ p'.closed = false := by
  have hd : p.data.drop p.pos = w := by simpa [left, ho] using hl
  refine ⟨{ p with pos := p.data.length - 0 }, ?_, ?_, ho⟩
  · unfold readExpr
    rw [if_neg (by simp [ho])]
    dsimp only
    rw [hd, hw]
    rfl
  · simp [left, ho]

/-! ## Printed data -/

/-- No character object is a parenthesis, a quotation mark or a carriage return. -/
def TameChars : D → Prop
  | .chr c => c ∉ [40, 41, 34, 13]
  | .pair a d => TameChars a ∧ TameChars d
  | .dot x => TameChars x
  | .vec e => TameChars e
  | _ => True

theorem Bal.append {s t : Bytes} (hs : Bal s) (ht : Bal t) : Bal (s ++ t) := by
  induction hs with
  | nil => exact ht
  | plain hc _ ih => exact .plain hc ih
  | @str b u hb _ ih =>
    have : 34 :: (b ++ 34 :: u) ++ t = 34 :: (b ++ 34 :: (u ++ t)) := by simp
    rw [this]; exact .str hb ih
  | @nest s u hs _ ih1 ih =>
    have : 40 :: (s ++ 41 :: u) ++ t = 40 :: (s ++ 41 :: (u ++ t)) := by simp
    rw [this]; exact .nest hs ih

theorem Bal.of_flat {s : Bytes} (h : Flat s) : Bal s := by
  induction h with
  | nil => exact .nil
  | plain hc _ ih => exact .plain (fun h => hc (List.mem_append_left (as := [40, 41, 34]) [32, 9, 10, 13] h)) ih
  | str hb _ ih => exact .str hb ih

theorem Flat.of_mem : ∀ {s : Bytes}, (∀ c ∈ s, c ∉ [40, 41, 34, 32, 9, 10, 13]) → Flat s
  | [], _ => .nil
  | c :: _, h => .plain (h c (.head _)) (.of_mem fun c hc => h c (.tail _ hc))

theorem strBody_append {a b : Bytes} (ha : StrBody a) (hb : StrBody b) : StrBody (a ++ b) := by
  induction ha with
  | nil => exact hb
  | chr h1 h2 _ ih => exact .chr h1 h2 ih
  | esc _ ih => exact .esc ih

theorem strBody_esc (c : UInt8) : StrBody (escChar c) := by
  unfold escChar
  have hoct : ∀ c : UInt8, 48 + c / 64 ≠ 34 ∧ 48 + c / 64 ≠ 92 ∧ 48 + c / 8 % 8 ≠ 34 ∧ 48 + c / 8 % 8 ≠ 92 ∧ 48 + c % 8 ≠ 34 ∧ 48 + c % 8 ≠ 92 := by decide +kernel
  obtain ⟨o1, o2, o3, o4, o5, o6⟩ := hoct c
  repeat' split
  · exact .esc .nil
  · exact .esc .nil
  · exact .esc .nil
  · exact .esc .nil
  · exact .esc .nil
  · rename_i h1 h2 _ _ _ _
    exact .chr (by simpa using h2) (by simpa using h1) .nil
  · exact .esc (.chr o3 o4 (.chr o5 o6 .nil))

theorem strBody_text (s : Bytes) : StrBody (s.flatMap escChar) := by
  induction s with
  | nil => exact .nil
  | cons c t ih => rw [List.flatMap_cons]; exact strBody_append (strBody_esc c) ih

theorem flat_str (s : Bytes) : Flat (strText true s) := Flat.str (strBody_text s) .nil

theorem flat_sym {s : Bytes} (h : SymOk s) : Flat (symText s) := by
  rw [(symOk_cstr h).2.2]
  exact .of_mem fun c hc => (show ∀ c : UInt8, isConst c = true → c ∉ [40, 41, 34, 32, 9, 10, 13] by decide +kernel) c (symChar_iff.1 (h.chars c hc))

theorem flat_num (n : Int) : Flat (printLld n) := by
  have hd : ∀ c ∈ printD n.natAbs, c ∉ [40, 41, 34, 32, 9, 10, 13] := fun c hc =>
    (show ∀ c : UInt8, isDigit c = true → c ∉ [40, 41, 34, 32, 9, 10, 13] by decide +kernel) c (decLoop_digits _ _ c hc)
  unfold printLld
  split
  · exact .plain (by decide) (.of_mem hd)
  · exact .of_mem hd

theorem flat_chr {c : UInt8} (h : c ∉ [40, 41, 34, 13]) : Flat (charText true c) := by
  unfold charText
  rw [if_pos rfl]
  split
  · exact .of_mem (by decide +kernel)
  · split
    · exact .of_mem (by decide +kernel)
    · split
      · exact .of_mem (by decide +kernel)
      · rename_i h1 h2 h3
        refine .plain (by decide) (.plain (by decide) (.plain ?_ .nil))
        simp only [List.mem_cons, List.not_mem_nil, or_false, not_or] at h ⊢
        exact ⟨h.1, h.2.1, h.2.2.1, by simpa using h1, by simpa using h3, by simpa using h2, h.2.2.2⟩

theorem flat_bool (b : Bool) (c : Ctx) : Flat (pr F .datum true c (.bool b)) := by
  have h1 : asc "#t" = [35, 116] := by decide +kernel
  have h2 : asc "#f" = [35, 102] := by decide +kernel
  cases b
  · show Flat (asc "#f"); rw [h2]; exact .plain (by decide) (.plain (by decide) .nil)
  · show Flat (asc "#t"); rw [h1]; exact .plain (by decide) (.plain (by decide) .nil)

theorem bal_paren {s : Bytes} (h : Bal s) : Bal (40 :: (s ++ [41])) := .nest h .nil

theorem bal_pr (d : D) : (Readable .datum d → TameChars d → ∀ c, Bal (pr F .datum true c d)) ∧
    (Readable .tail d → TameChars d → ∀ c, Bal (pr F .tail true c d)) ∧
    (Readable .elems d → TameChars d → ∀ c b, Bal (pr F (.elems b) true c d)) ∧
    (∀ x e, d = .pair x e → Readable .datum x → TameChars x → ∀ c, Bal (pr F .datum true c x)) := by
  have hsp : (32 : UInt8) ∉ ([40, 41, 34] : List UInt8) := by decide
  induction d with
  | nil => exact ⟨fun _ _ c => (show Bal (asc "()") from Bal.nest .nil .nil), fun _ _ c => .nil, fun _ _ c b => .nil, by simp⟩
  | bool b =>
    refine ⟨fun _ _ c => ?_, fun h => absurd h id, fun h => absurd h id, by simp⟩
    exact .of_flat (flat_bool b c)
  | num n => exact ⟨fun _ _ c => .of_flat (flat_num n), fun h => absurd h id, fun h => absurd h id, by simp⟩
  | flo b => exact ⟨fun h => absurd h id, fun h => absurd h id, fun h => absurd h id, by simp⟩
  | ratio n d => exact ⟨fun h => absurd h id, fun h => absurd h id, fun h => absurd h id, by simp⟩
  | chr x => exact ⟨fun _ ht c => .of_flat (flat_chr ht), fun h => absurd h id, fun h => absurd h id, by simp⟩
  | str s => exact ⟨fun _ _ c => .of_flat (flat_str s), fun h => absurd h id, fun h => absurd h id, by simp⟩
  | sym s => exact ⟨fun hr _ c => .of_flat (flat_sym hr), fun h => absurd h id, fun h => absurd h id, by simp⟩
  | vec e ih =>
    refine ⟨fun hr ht c => ?_, fun h => absurd h id, fun h => absurd h id, by simp⟩
    have h1 : asc "#(" = [35, 40] := by decide +kernel
    have h2 : asc ")" = [41] := by decide +kernel
    show Bal (asc "#(" ++ pr F (.elems true) true c e ++ asc ")")
    rw [h1, h2]
    exact .plain (by decide) (bal_paren (ih.2.2.1 hr ht c true))
  | dot x ih =>
    refine ⟨fun h => absurd h id, fun hr ht c => ?_, fun h => absurd h id, by simp⟩
    have hr : Readable .datum x := hr
    unfold pr
    split
    · rename_i hp
      have hx : Readable .tail x := by
        cases x with
        | pair a d => exact ⟨hr.1, hr.2.1⟩
        | _ => simp [properPair] at hp
      exact ih.2.1 hx ht c
    · have : asc " . " = [32, 46, 32] := by decide +kernel
      rw [this]
      exact .plain hsp (.plain (by decide) (.plain hsp (ih.1 hr ht c)))
  | pair a d iha ihd =>
    refine ⟨fun hr ht c => ?_, fun hr ht c => ?_, fun hr ht c b => ?_, fun x e he hx ht c => ?_⟩
    · rcases pr_pair (F := F) (c := c) hr with ⟨rfl, _, x, rfl, he⟩ | ⟨c', he⟩
      · rw [he]
        exact .plain (by decide) (ihd.2.2.2 x .nil rfl hr.2.1.1 ht.2.1 c)
      · rw [he]
        exact bal_paren ((iha.1 hr.1 ht.1 c).append (ihd.2.1 hr.2.1 ht.2 c'))
    · have e1 : pr F .tail true c (.pair a d) = 32 :: (pr F .datum true c a ++ pr F .tail true c d) := by simp [pr]
      rw [e1]
      exact .plain hsp ((iha.1 hr.1 ht.1 c).append (ihd.2.1 hr.2 ht.2 c))
    · have e1 : pr F (.elems b) true c (.pair a d) = (if b then [] else [32]) ++ (pr F .datum true c a ++ pr F (.elems false) true c d) := by simp [pr]
      rw [e1]
      have := (iha.1 hr.1 ht.1 c).append (ihd.2.2.1 hr.2 ht.2 c false)
      cases b
      · exact .plain hsp this
      · exact this
    · injection he with h1 h2
      subst h1
      exact iha.1 hx ht c

/-- The written form of a datum is a list, a vector or an atom. -/
theorem print_shape {d : D} (hr : Readable .datum d) (ht : TameChars d) :
    (∃ p s, Flat p ∧ Bal s ∧ print F true d = p ++ 40 :: (s ++ [41])) ∨ Flat (print F true d) := by
  have h2 : asc ")" = [41] := by decide +kernel
  unfold print
  cases d with
  | nil => exact .inl ⟨[], [], .nil, .nil, rfl⟩
  | bool b => exact .inr (flat_bool b _)
  | num n => exact .inr (flat_num n)
  | flo b => exact absurd hr id
  | ratio n d => exact absurd hr id
  | chr x => exact .inr (flat_chr ht)
  | str s => exact .inr (flat_str s)
  | sym s => exact .inr (flat_sym hr)
  | vec e =>
    have h1 : asc "#(" = [35, 40] := by decide +kernel
    refine .inl ⟨[35], pr F (.elems true) true ⟨false, false⟩ e, .plain (by decide) .nil, (bal_pr e).2.2.1 hr ht _ _, ?_⟩
    show asc "#(" ++ pr F (.elems true) true ⟨false, false⟩ e ++ asc ")" = _
    rw [h1, h2]; simp
  | dot x => exact absurd hr id
  | pair a d =>
    rcases pr_pair (F := F) (c := ⟨false, false⟩) hr with ⟨_, h, _⟩ | ⟨c', he⟩
    · cases h
    · exact .inl ⟨[], _, .nil, ((bal_pr a).1 hr.1 ht.1 _).append ((bal_pr d).2.1 hr.2.1 ht.2 c'), he⟩

end Pscm.Port
