import Verif.SrcLocLemmas
/-!
# C116-C118: source positions, error messages, the printed call stack

Specifications: `Place` (what a location says), `WF` (every name allocated and owned by one object), `Paired` (which part of an expansion stands at the place of
which part of the call), `active` (the expressions being evaluated).
-/
namespace Pscm.Loc
open Rd

/-! ## C116 -/

/-- C116: the reader's position of a datum is stored, replacing an older one, and no other datum is affected. -/
theorem c116_read (h : H) (wf : WF h) (x : Nat) (hx : x < h.objs.length) (file : Bytes) (line col : Int) :
    ∃ h', setSourceLocation h x (some file) line col = .ok h' ∧ WF h' ∧ Place h' x = some (some file, line, col) ∧
      ∀ y, y ≠ x → Place h' y = Place h y := by
  have hfree : ∃ strs, freeOpt h.strs ((locOf h x).bind (·.file)) = .ok strs ∧ strs.length = h.strs.length ∧
      (∀ p, (∀ m, locOf h x = some m → m.file ≠ some p) → strs[p]? = h.strs[p]?) := by
    cases hd : (locOf h x).bind (·.file) with
    | none => exact ⟨_, rfl, rfl, fun _ _ => rfl⟩
    | some p =>
      obtain ⟨m, hm, hp⟩ := Option.bind_eq_some_iff.1 hd
      obtain ⟨t, ht⟩ := wf.live x m p hm hp
      refine ⟨h.strs.set p none, by simp [freeOpt, freeStr, ht], by simp, ?_⟩
      intro q hq
      have : p ≠ q := fun e => hq m hm (by rw [hp, e])
      simp [List.getElem?_set, this]
  obtain ⟨strs, hs1, hs2, hs3⟩ := hfree
  have hlive : ∀ y m p, y ≠ x → locOf h y = some m → m.file = some p → (strs ++ [some file])[p]? = h.strs[p]? ∧ p < strs.length := by
    intro y m p hy hm hp
    obtain ⟨t, ht⟩ := wf.live y m p hm hp
    have hlt : p < strs.length := by rw [hs2]; exact (List.getElem?_eq_some_iff.1 ht).1
    rw [List.getElem?_append_left hlt]
    exact ⟨hs3 p fun m' hm' hp' => hy (wf.own y x m m' p hm hm' hp hp'), hlt⟩
  refine ⟨setLoc h x ⟨some strs.length, line, col⟩ (strs ++ [some file]), by simp only [setSourceLocation, hs1, Res.bind_ok, Res.pure_eq], ⟨?_, ?_⟩, ?_, ?_⟩
  · intro y m p hm hp
    rw [locOf_setLoc, if_pos hx] at hm
    split at hm
    · cases hm; cases hp; exact ⟨file, by simp [setLoc]⟩
    · rename_i hy
      obtain ⟨t, ht⟩ := wf.live y m p hm hp
      exact ⟨t, (hlive y m p (Ne.symm hy) hm hp).1.trans ht⟩
  · intro y z m m' p hm hm' hp hp'
    rw [locOf_setLoc, if_pos hx] at hm hm'
    split at hm <;> split at hm'
    · rename_i a b; omega
    · rename_i a b
      cases hm; cases hp
      have := (hlive z m' _ (Ne.symm b) hm' hp').2
      omega
    · rename_i a b
      cases hm'; cases hp'
      have := (hlive y m _ (Ne.symm a) hm hp).2
      omega
    · exact wf.own y z m m' p hm hm' hp hp'
  · unfold Place
    rw [locOf_setLoc, if_pos rfl, if_pos hx]
    simp [setLoc]
  · intro y hy
    unfold Place
    rw [locOf_setLoc, if_neg (Ne.symm hy)]
    cases hm : locOf h y with
    | none => rfl
    | some m =>
      simp only [Option.map_some, Option.some.injEq, Prod.mk.injEq, and_true]
      cases hp : m.file with
      | none => rfl
      | some p =>
        simp only [Option.bind_some]
        exact congrArg _ (hlive y m p hy hm hp).1

/-- C116 (the part that holds): when no part of the expansion *is* the part of the call standing at the same place, the expansion of a macro call gets
the position of the call, the bookkeeping of names stays sound, and positions of objects that are not part of the expansion stay. -/
theorem c116_expansion_partial (h : H) (wf : WF h) (d s n : Nat) (hd : d < h.objs.length) (hs : (locOf h s).isSome)
    (hne : ∀ a, ¬ Paired (kidsOf h) d s a a) (hn : Depth (kidsOf h) s n)
    (hroot : ∀ a b y, (a, b) ∈ (kidsOf h d).zip (kidsOf h s) → ¬ Paired (kidsOf h) a b d y) :
    ∃ h', relocate n h d s = .ok h' ∧ WF h' ∧ Place h' d = Place h s ∧
      (∀ x, (∀ y, ¬ Paired (kidsOf h) d s x y) → Place h' x = Place h x) := by
  obtain ⟨h', e, wf', sm, hp⟩ := copyRec_good n h d s wf hne hn
  have hplace : Place h' d = Place h s := by
    cases n with
    | zero => cases hn
    | succ n =>
      unfold copyRec at e
      cases hl : locOf h s with
      | none => rw [hl] at hs; cases hs
      | some l =>
        rw [hl] at e
        simp only at e
        have hds : d ≠ s := fun e => hne s (by rw [e]; exact .here)
        obtain ⟨h1, e1, wf1, s1, _, pl, _⟩ := copyLoc_ok wf hds
        simp only [e1, Res.bind_ok] at e
        obtain ⟨h2, e2, _, _, p2⟩ := zipRun_good (n := n) (h0 := h1) (fun h d s _ => copyRec_good n h d s) (kidsOf h1 d) (kidsOf h1 s) h1 rfl wf1
          (fun a b hab x hx => hne x (by rw [s1.kids] at hab hx; exact .kid hab hx))
          (by
            cases hn with
            | mk hn => rw [s1.kids]; exact hn)
        rw [e2] at e
        cases e
        rw [p2 d (fun a b y hab hx => hroot a b y (by rw [s1.kids] at hab; exact hab) (by rw [s1.kids] at hx; exact hx)), pl hs hd]
  have hsome : (locOf h' d).isNone = false := by
    cases hl : locOf h s with
    | none => rw [hl] at hs; cases hs
    | some l =>
      cases hm : locOf h' d with
      | none => simp [Place, hl, hm] at hplace
      | some _ => rfl
  refine ⟨h', ?_, wf', hplace, hp⟩
  unfold relocate
  simp only [e, Res.bind_ok, hsome, Bool.false_and, Bool.false_eq_true, if_false, Res.pure_eq]

/-- The memory for `(m 1 x)` in file `f` (objects 0-3) expanded to `(if 7)` (objects 4-6), all read from that file. -/
def fresh : H where
  objs := [⟨some ⟨some 0, 3, 1⟩, [1, 2, 3]⟩, ⟨some ⟨some 1, 3, 2⟩, []⟩, ⟨some ⟨some 2, 3, 4⟩, []⟩, ⟨some ⟨some 3, 3, 6⟩, []⟩,
    ⟨none, [5, 6]⟩, ⟨some ⟨some 4, 1, 20⟩, []⟩, ⟨none, []⟩]
  strs := [some (asc "f"), some (asc "f"), some (asc "f"), some (asc "f"), some (asc "f")]

/-- The same with the argument `1` of the call as the first argument of the expansion: `(if 1)`. -/
def shared : H := { fresh with objs := fresh.objs.set 4 ⟨none, [5, 2]⟩ }

theorem locOf_fresh (x : Nat) (l : L) (p : Nat) (h : locOf fresh x = some l) (hp : l.file = some p) :
    (x, p) ∈ [(0, 0), (1, 1), (2, 2), (3, 3), (5, 4)] := by
  match x with
  | 0 => cases h; cases hp; decide
  | 1 => cases h; cases hp; decide
  | 2 => cases h; cases hp; decide
  | 3 => cases h; cases hp; decide
  | 4 => cases h
  | 5 => cases h; cases hp; decide
  | 6 => cases h
  | n + 7 => cases h

theorem wf_fresh : WF fresh := by
  constructor
  · intro x l p h hp
    have := locOf_fresh x l p h hp
    simp only [List.mem_cons, Prod.mk.injEq, List.not_mem_nil, or_false] at this
    rcases this with ⟨_, rfl⟩ | ⟨_, rfl⟩ | ⟨_, rfl⟩ | ⟨_, rfl⟩ | ⟨_, rfl⟩ <;> exact ⟨_, rfl⟩
  · intro x y l m p h h' hp hp'
    have h1 := locOf_fresh x l p h hp
    have h2 := locOf_fresh y m p h' hp'
    simp only [List.mem_cons, Prod.mk.injEq, List.not_mem_nil, or_false] at h1 h2
    omega

theorem kids_atom (x : Nat) (hx : x ≠ 0 ∧ x ≠ 4) : kidsOf fresh x = [] := by
  match x with
  | 0 => omega
  | 1 => rfl
  | 2 => rfl
  | 3 => rfl
  | 4 => omega
  | 5 => rfl
  | 6 => rfl
  | n + 7 => rfl

theorem paired_fresh {a b : Nat} (h : Paired (kidsOf fresh) 4 0 a b) : (a, b) = (4, 0) ∨ (a, b) = (5, 1) ∨ (a, b) = (6, 2) := by
  cases h with
  | here => exact .inl rfl
  | @kid _ _ c e _ _ hk hp =>
    have hk' : (c, e) ∈ [(5, 1), (6, 2)] := hk
    simp only [List.mem_cons, Prod.mk.injEq, List.not_mem_nil, or_false] at hk'
    rcases hk' with ⟨rfl, rfl⟩ | ⟨rfl, rfl⟩
    · cases hp with
      | here => exact .inr (.inl rfl)
      | kid hk _ => rw [kids_atom 5 (by decide)] at hk; simp at hk
    · cases hp with
      | here => exact .inr (.inr rfl)
      | kid hk _ => rw [kids_atom 6 (by decide)] at hk; simp at hk

/-- The hypotheses of `c116_expansion_partial` hold together: the expansion `(if 7)` of `(m 1 x)` is afterwards said to be at line 3, column 1. -/
example : ∃ h', relocate 2 fresh 4 0 = .ok h' ∧ Place h' 4 = some (some (asc "f"), 3, 1) := by
  obtain ⟨h', h1, _, h2, _⟩ := c116_expansion_partial fresh wf_fresh 4 0 2 (by decide) rfl
    (fun a h => by
      have := paired_fresh h
      simp only [Prod.mk.injEq] at this
      omega)
    (.mk fun b hb => .mk fun c hc => by
      have hb' : b ∈ [1, 2, 3] := hb
      simp only [List.mem_cons, List.not_mem_nil, or_false] at hb'
      rw [kids_atom b (by omega)] at hc
      cases hc)
    (fun a b y hab hp => by
      have hab' : (a, b) ∈ [(5, 1), (6, 2)] := hab
      simp only [List.mem_cons, Prod.mk.injEq, List.not_mem_nil, or_false] at hab'
      rcases hab' with ⟨rfl, rfl⟩ | ⟨rfl, rfl⟩
      · cases hp with
        | kid hk _ => rw [kids_atom 5 (by decide)] at hk; simp at hk
      · cases hp with
        | kid hk _ => rw [kids_atom 6 (by decide)] at hk; simp at hk)
  exact ⟨h', h1, h2⟩

/-- C116 is FALSE in general: when the expansion contains, at the same position, the very argument of the call (a macro that passes an argument through, as
`(define-macro (when1 c e) (list 'if c e))` does) and the code was read from a file, relocating never succeeds: the file name is copied after it was
freed. -/
theorem c116_shared_fails (h : H) (d s x n : Nat) (hn : AllNamed h) (hs : (locOf h s).isSome) (hx : (locOf h x).isSome)
    (hm : (x, x) ∈ (kidsOf h d).zip (kidsOf h s)) : ∀ h', relocate n h d s ≠ .ok h' := by
  intro h' e
  unfold relocate at e
  obtain ⟨h1, e1, _⟩ := Res.bind_eq_ok.1 e
  cases n with
  | zero => cases e1
  | succ n =>
    unfold copyRec at e1
    cases hl : locOf h s with
    | none => rw [hl] at hs; cases hs
    | some l =>
      rw [hl] at e1
      simp only at e1
      obtain ⟨h2, e2, e1⟩ := Res.bind_eq_ok.1 e1
      obtain ⟨n2, k2, p2⟩ := copyLoc_named hn e2
      rw [k2] at e1
      exact zipRun_shared _ _ n2 (p2 x hx) hm e1

/-- The concrete case, with the outcome: undefined behaviour. -/
theorem c116_counterexample : AllNamed shared ∧ (2, 2) ∈ (kidsOf shared 4).zip (kidsOf shared 0) ∧ relocate 9 shared 4 0 = .ub := by
  refine ⟨?_, by decide, by decide +kernel⟩
  intro x l h
  match x with
  | 0 => cases h; decide
  | 1 => cases h; decide
  | 2 => cases h; decide
  | 3 => cases h; decide
  | 4 => cases h
  | 5 => cases h; decide
  | 6 => cases h
  | n + 7 => cases h

/-! ## C117 -/

/-- The text `file:line:col` of a place; `<unknown>` without a file. -/
def placeText : Option Bytes × Int × Int → Bytes
  | (f, line, col) => cstr (f.getD (asc "<unknown>")) ++ asc ":" ++ printLld line ++ asc ":" ++ printLld col

/-- C117: the printed position of a datum is `file:line:col` of its place, cut after 511 bytes. -/
theorem c117_position (h : H) (wf : WF h) (x : Nat) : locStr h x = .ok ((Place h x).map fun p => (placeText p).take 511) := by
  unfold locStr Place
  cases hl : locOf h x with
  | none => rfl
  | some l =>
    cases hf : l.file with
    | none =>
      have : cstr (asc "<unknown>") = asc "<unknown>" := by decide
      simp [hf, placeText, this, List.append_assoc]
    | some p =>
      obtain ⟨t, ht⟩ := wf.live x l p hl hf
      simp [hf, ht, placeText, List.append_assoc]

example : locStr fresh 5 = .ok (some (asc "f:1:20")) := by decide +kernel

/-- C117: for a file name of 511 bytes or more, the position shows neither line nor column: all positions in the file look the same. -/
theorem c117_position_lost (f : Bytes) (hf : 511 ≤ (cstr f).length) (l1 c1 l2 c2 : Int) :
    (placeText (some f, l1, c1)).take 511 = (placeText (some f, l2, c2)).take 511 := by
  simp only [placeText, Option.getD_some, List.append_assoc]
  rw [List.take_append_of_le_length hf, List.take_append_of_le_length hf]

example : 511 ≤ (cstr (List.replicate 600 97)).length := by decide +kernel

theorem put_ok {cap : Nat} {b : Buf} {t : Bytes} (h1 : b.text.length = b.pos) (h2 : b.pos + t.length < cap) :
    put cap b t = .ok ⟨b.text ++ t, (b.text ++ t).length⟩ := by
  unfold put
  rw [if_pos (by omega), List.take_of_length_le (by omega)]
  simp [h1]

/-- The prefix of a message: the position, if there is one. -/
def prefixOf : Option Bytes → Bytes
  | none => []
  | some l => l ++ asc ": "

/-- C117: an error message is the position of the expression being evaluated followed by the text of the error (its first 1023 bytes); the buffers are never
overrun, whatever the text. -/
theorem c117_error (loc : Option Bytes) (hl : ∀ l, loc = some l → l.length ≤ 511) (msg : Bytes) :
    evalErrorText loc msg = .ok (prefixOf loc ++ msg.take 1023) := by
  have ht : (msg.take 1023).length ≤ 1023 := by simp; omega
  have h2 : (asc ": ").length = 2 := by decide
  unfold evalErrorText
  cases loc with
  | none =>
    simp only [Option.map_none, putOpt, Res.bind_ok]
    rw [put_ok rfl (by simp; omega)]
    simp [prefixOf]
  | some l =>
    have := hl l rfl
    simp only [Option.map_some, putOpt]
    rw [put_ok rfl (by simp [h2]; omega)]
    simp only [Res.bind_ok, List.nil_append]
    rw [put_ok rfl (by simp [h2]; omega)]
    simp [prefixOf]

example : ∀ l, some (asc "file.scm:10:3") = some l → l.length ≤ 511 := by rintro l ⟨⟩; decide

/-- C117: the positions the interpreter computes are short enough for `c117_error`. -/
theorem c117_position_short (h : H) (x : Nat) (t : Bytes) (ht : locStr h x = .ok (some t)) : t.length ≤ 511 := by
  unfold locStr at ht
  split at ht
  · cases ht
  · simp only at ht
    split at ht
    · cases ht; simp; omega
    · split at ht
      · cases ht; simp; omega
      · cases ht

theorem typeName_short (tag : Nat) : (typeName tag).length ≤ 12 := by
  unfold typeName
  by_cases h : tag < 19
  · have hall : (List.range 19).all (fun t => decide ((asc (typeNames.getD t "unknown")).length ≤ 12)) = true := by decide
    exact of_decide_eq_true ((List.all_eq_true.1 hall) tag (by simp [h]))
  · have : typeNames.getD tag "unknown" = "unknown" := by
      rw [List.getD_eq_getElem?_getD, List.getElem?_eq_none (by simp [typeNames]; omega)]; rfl
    rw [this]; decide

/-- What a type error says: position, expectation, actual type, and where. -/
def typeErrorSpec (dataLoc ctx : Option Bytes) (expected got : Bytes) (same : Bool) : Bytes :=
  prefixOf (dataLoc <|> ctx) ++ asc "Type error: expected " ++ expected ++ asc ", but got " ++ got ++
    (if same then [] else match ctx with
      | none => []
      | some c => asc "\n  While evaluating at " ++ c)

/-- C117: a type error raises an ordinary error with that text (its first 1023 bytes, after the position); the buffers are never overrun. -/
theorem c117_type_error (dataLoc ctx : Option Bytes) (hd : ∀ l, dataLoc = some l → l.length ≤ 511) (hc : ∀ l, ctx = some l → l.length ≤ 511)
    (expected : Bytes) (he : expected.length ≤ 400) (tag : Option Nat) (same : Bool) :
    typeErrorText dataLoc ctx expected tag same =
      .ok (prefixOf ctx ++ (typeErrorSpec dataLoc ctx expected (gotText tag) same).take 1023) := by
  have hloc : ∀ l, (dataLoc <|> ctx) = some l → l.length ≤ 511 := by
    intro l h
    cases dataLoc with
    | none => exact hc l (by simpa using h)
    | some d => exact hd l (by simpa using h)
  have hgot : (gotText tag).length ≤ 12 := by
    cases tag with
    | none => decide
    | some t => exact typeName_short t
  unfold typeErrorText typeErrorSpec
  generalize (gotText tag) = got at hgot ⊢
  generalize (dataLoc <|> ctx) = loc at hloc ⊢
  have hp : (prefixOf loc).length ≤ 513 := by
    cases loc with
    | none => simp [prefixOf]
    | some l => have := hloc l rfl; have h2 : (asc ": ").length = 2 := by decide
                simp [prefixOf, h2]; omega
  have h1 : putOpt 1024 ⟨[], 0⟩ (loc.map (· ++ asc ": ")) = .ok ⟨prefixOf loc, (prefixOf loc).length⟩ := by
    cases loc with
    | none => rfl
    | some l =>
      have hl : (l ++ asc ": ").length ≤ 513 := hp
      simp only [Option.map_some, putOpt]
      rw [put_ok rfl (by simp only [Nat.zero_add]; omega)]
      simp [prefixOf]
  simp only [h1, Res.bind_ok]
  have ha : (asc "Type error: expected ").length = 21 := by decide
  have hb : (asc ", but got ").length = 10 := by decide
  rw [put_ok rfl (by simp only [List.length_append, ha, hb]; omega)]
  simp only [Res.bind_ok]
  rw [put_ok rfl (by simp only [List.length_append, ha, hb]; omega)]
  simp only [Res.bind_ok]
  cases same with
  | true =>
    simp only [if_true, Res.pure_eq, Res.bind_ok, List.append_nil]
    rw [c117_error ctx hc]
    simp [List.append_assoc]
  | false =>
    simp only [Bool.false_eq_true, if_false]
    cases ctx with
    | none =>
      simp only [Option.map_none, putOpt, Res.bind_ok, List.append_nil]
      rw [c117_error none (fun l h => by cases h)]
      simp [List.append_assoc]
    | some c =>
      simp only [Option.map_some, putOpt]
      unfold put
      rw [if_pos (by simp only [List.length_append, ha, hb]; omega)]
      simp only [Res.bind_ok]
      rw [c117_error _ hc]
      have key : ∀ (X Y : Bytes), X.length ≤ 1023 → (X ++ Y.take (1024 - 1 - X.length)).take 1023 = (X ++ Y).take 1023 := by
        intro X Y hX
        rw [List.take_append, List.take_append, List.take_take]
        congr 2
        omega
      rw [key _ _ (by simp only [List.length_append, ha, hb]; omega)]
      simp [List.append_assoc]

example : (asc "pair with at least 2 elements").length ≤ 400 := by decide

/-! ## C118 -/

/-- The text kept for an expression: all of it, or its first 200 bytes and an ellipsis. -/
theorem c118_text (t : Bytes) : (exprToString t).1 = (if t.length ≤ 200 then t else t.take 200 ++ asc "...") ∧
    (exprToString t).1.length + 1 ≤ (exprToString t).2 := by
  have h3 : (asc "...").length = 3 := by decide
  simp only [exprToString]
  by_cases h : t.length ≤ 200
  · have h2 : ¬ 200 < t.length := by omega
    simp only [h, h2, if_true, if_false, List.append_nil, List.take_of_length_le h, true_and]
    split <;> omega
  · have h2 : 200 < t.length := by omega
    have h4 : ¬ t.length < 200 := by omega
    simp only [h, h2, h4, if_true, if_false, true_and, List.length_append, List.length_take, h3]
    omega

mutual
/-- The expressions being evaluated (innermost first) at each error report. -/
def active (chain : List Frame) : T → List (List Frame)
  | .call loc e ps => actives (⟨loc.getD [], (exprToString e).1⟩ :: chain) ps
  | .raises loc e ps => actives (⟨loc.getD [], (exprToString e).1⟩ :: chain) ps
  | .guards loc e ps => actives (⟨loc.getD [], (exprToString e).1⟩ :: chain) ps
  | .look => [chain]
def actives (chain : List Frame) : List T → List (List Frame)
  | [] => []
  | t :: ts => active chain t ++ actives chain ts
end

mutual
/-- No expression raises an error, every expression has a position, and the nesting is below `n`. -/
def Calm : Nat → T → Prop
  | n, .call loc _ ps => loc.isSome ∧ 0 < n ∧ Calms (n - 1) ps
  | n, .guards loc _ ps => loc.isSome ∧ 0 < n ∧ Calms (n - 1) ps
  | _, .raises _ _ _ => False
  | _, .look => True
def Calms : Nat → List T → Prop
  | _, [] => True
  | n, t :: ts => Calm n t ∧ Calms n ts
end

theorem push_some {st : List Frame} {loc : Option Bytes} {e : Bytes} (hl : loc.isSome) (hs : st.length < 100) :
    push st loc e = ⟨loc.getD [], (exprToString e).1⟩ :: st := by
  unfold push
  rw [if_neg (by omega)]
  cases loc with
  | none => cases hl
  | some l => rfl

mutual
theorem run_calm : ∀ (t : T) (n : Nat) (s : S), Calm n t → s.st.length + n ≤ 100 → run t s = (true, ⟨s.st, s.log ++ active s.st t⟩)
  | .call loc e ps, n, s, hc, hn => by
    simp only [Calm] at hc
    obtain ⟨hl, h0, hp⟩ := hc
    have hps := push_some (e := e) hl (st := s.st) (by omega)
    have := runAll_calm ps (n - 1) { s with st := push s.st loc e } hp (by rw [hps]; simp; omega)
    rw [hps] at this
    simp only [run, hps, this, active, pop, List.tail_cons]
  | .guards loc e ps, n, s, hc, hn => by
    simp only [Calm] at hc
    obtain ⟨hl, h0, hp⟩ := hc
    have hps := push_some (e := e) hl (st := s.st) (by omega)
    have := runAll_calm ps (n - 1) { s with st := push s.st loc e } hp (by rw [hps]; simp; omega)
    rw [hps] at this
    simp only [run, hps, this, active, pop, List.tail_cons]
  | .raises _ _ _, _, _, hc, _ => by simp only [Calm] at hc
  | .look, _, s, _, _ => by simp only [run, active]
theorem runAll_calm : ∀ (ts : List T) (n : Nat) (s : S), Calms n ts → s.st.length + n ≤ 100 →
    runAll ts s = (true, ⟨s.st, s.log ++ actives s.st ts⟩)
  | [], _, s, _, _ => by simp only [runAll, actives, List.append_nil]
  | t :: ts, n, s, hc, hn => by
    simp only [Calms] at hc
    have h1 := run_calm t n s hc.1 hn
    have h2 := runAll_calm ts n ⟨s.st, s.log ++ active s.st t⟩ hc.2 hn
    simp only [runAll, h1, h2, actives, List.append_assoc]
end

/-- C118 (the part that holds): as long as no error was raised before, every expression has a position and at most 100 are nested, each report shows exactly the
expressions being evaluated, innermost first, and afterwards the stack is as before. -/
theorem c118_report_partial (t : T) (n : Nat) (st : List Frame) (h : Calm n t) (hn : st.length + n ≤ 100) :
    run t ⟨st, []⟩ = (true, ⟨st, active st t⟩) := by
  rw [run_calm t n ⟨st, []⟩ h hn]
  rfl

example : Calm 2 (.call (some (asc "f:1:1")) (asc "(g (h))") [.call (some (asc "f:1:4")) (asc "(h)") [.look], .look]) ∧
    active [] (.call (some (asc "f:1:1")) (asc "(g (h))") [.call (some (asc "f:1:4")) (asc "(h)") [.look], .look]) =
      [[⟨asc "f:1:4", asc "(h)"⟩, ⟨asc "f:1:1", asc "(g (h))"⟩], [⟨asc "f:1:1", asc "(g (h))"⟩]] := by
  refine ⟨by simp [Calm, Calms], by decide +kernel⟩

/-- C118: of a stack at most the 20 innermost expressions are printed, and the rest is counted. -/
theorem c118_shown (st : List Frame) : (shown st).1 <+: st ∧ (shown st).1.length = min 20 st.length ∧
    (shown st).1.length + (shown st).2.getD 0 = st.length := by
  unfold shown
  refine ⟨List.take_prefix _ _, by simp, ?_⟩
  by_cases h : 20 < st.length
  · rw [if_pos h]; simp; omega
  · rw [if_neg h]; simp; omega

/-- A caught error: an expression raises an error inside one that catches it. -/
def caught : T := .guards (some (asc "f:1:1")) (asc "(catch ...)") [.raises (some (asc "f:1:9")) (asc "(car 1)") []]

/-- C118 is FALSE after errors: every caught error leaves an entry on the stack for good; after `k` of them, evaluated one after another at top level, the stack
has `min k 99` entries of expressions whose evaluation ended long ago. -/
theorem c118_stale (k : Nat) : (runAll (List.replicate k caught) ⟨[], []⟩).2.st.length = min k 99 ∧ (runAll (List.replicate k caught) ⟨[], []⟩).1 = true := by
  have one : ∀ s : S, s.st.length ≤ 99 → (run caught s).1 = true ∧ (run caught s).2.st.length = min (s.st.length + 1) 99 := by
    intro s hs
    refine ⟨rfl, ?_⟩
    by_cases h : s.st.length < 99
    · simp only [caught, run, runAll]
      rw [push_some rfl (by omega : s.st.length < 100)]
      rw [push_some rfl (by simp; omega)]
      simp [pop]; omega
    · simp only [caught, run, runAll]
      rw [push_some rfl (by omega : s.st.length < 100)]
      simp only [push]
      rw [if_pos (by simp; omega)]
      simp [pop]; omega
  have all : ∀ (k : Nat) (s : S), s.st.length ≤ 99 → (runAll (List.replicate k caught) s).2.st.length = min (s.st.length + k) 99 ∧
      (runAll (List.replicate k caught) s).1 = true := by
    intro k
    induction k with
    | zero => intro s hs; simp only [List.replicate, runAll]; exact ⟨by omega, trivial⟩
    | succ k ih =>
      intro s hs
      obtain ⟨h1, h2⟩ := one s hs
      have he : run caught s = (true, (run caught s).2) := by rw [← h1]
      simp only [List.replicate, runAll]
      rw [he]
      simp only []
      obtain ⟨h3, h4⟩ := ih (run caught s).2 (by omega)
      exact ⟨by rw [h3, h2]; omega, h4⟩
  simpa using all k ⟨[], []⟩ (by decide)

/-- `k` nested expressions. -/
def nest : Nat → List T → List T
  | 0, ps => ps
  | k + 1, ps => [.call (some (asc "f:1:1")) (asc "(f)") (nest k ps)]

theorem runAll_nest_full (k : Nat) (s : S) (hs : s.st.length = 100) (hk : k ≤ 100) :
    (runAll (nest k []) s).1 = true ∧ (runAll (nest k []) s).2.st = s.st.drop k ∧ (runAll (nest k []) s).2.log = s.log := by
  induction k generalizing s with
  | zero => exact ⟨rfl, rfl, rfl⟩
  | succ k ih =>
    have hp : push s.st (some (asc "f:1:1")) (asc "(f)") = s.st := by simp [push, hs]
    obtain ⟨h1, h2, h3⟩ := ih s hs (by omega)
    have he : runAll (nest k []) s = (true, (runAll (nest k []) s).2) := by rw [← h1]
    simp only [nest, runAll, run, hp]
    rw [he]
    simp only [pop, h2, List.tail_drop]
    exact ⟨trivial, trivial, h3⟩

/-- C118 is FALSE below depth 100: entering an expression there records nothing, but returning from it removes an entry.  In 100 nested expressions, the innermost
of which evaluates `k` further nested ones and then reports an error, the report is missing `k` of the 100 expressions being evaluated. -/
theorem c118_deep (k : Nat) (hk : k ≤ 100) (st : List Frame) (hs : st.length = 100) (log : List (List Frame)) :
    (runAll (nest k [] ++ [.look]) ⟨st, log⟩).2.log = log ++ [st.drop k] := by
  obtain ⟨h1, h2, h3⟩ := runAll_nest_full k ⟨st, log⟩ hs hk
  have app : ∀ (ts us : List T) (s s' : S), runAll ts s = (true, s') → runAll (ts ++ us) s = runAll us s' := by
    intro ts
    induction ts with
    | nil => intro us s s' h; simp only [runAll] at h; cases h; rfl
    | cons t ts ih =>
      intro us s s' h
      simp only [runAll, List.cons_append] at h ⊢
      split at h
      · rename_i heq; exact ih us _ _ h
      · cases h
  have he : runAll (nest k []) ⟨st, log⟩ = (true, (runAll (nest k []) ⟨st, log⟩).2) := by rw [← h1]
  rw [app _ _ _ _ he]
  simp only [runAll, run, h2, h3]

/-- C118 is FALSE for expressions without position (built by the program or by macros): their return removes the entry of the expression around them. -/
theorem c118_unlocated (l e e' : Bytes) :
    (run (.call (some l) e [.call none e' [], .look]) ⟨[], []⟩).2.log = [[]] ∧
    active [] (.call (some l) e [.look]) = [[⟨l, (exprToString e).1⟩]] := by
  constructor
  · simp [run, runAll, push, pop]
  · simp [active, actives]

end Pscm.Loc
