import Verif.SmobScm
/-!
# C136: smobs from Scheme
-/
namespace Pscm.SmS
open Pscm.Misc

/-! ## Specification -/

/-- A history of calls from the start of the interpreter, with their answers. -/
inductive History : List Call → List (Res W) → Smobs → Prop
  | start : History [] [] ⟨[], []⟩
  | call {cs rs s c r s'} : History cs rs s → c.run s = (r, s') → History (cs ++ [c]) (rs ++ [r]) s'

/-- The `j`-th call of the history and its answer. -/
def Did (cs : List Call) (rs : List (Res W)) (j : Nat) (c : Call) (r : Res W) : Prop := cs[j]? = some c ∧ rs[j]? = some r

/-! ## Lemmas -/

theorem lengths {cs rs s} (h : History cs rs s) : cs.length = rs.length := by
  induction h with
  | start => rfl
  | call _ _ ih => simp [ih]

theorem Did.append {cs rs j c r c' r'} (h : Did cs rs j c r) : Did (cs ++ [c']) (rs ++ [r']) j c r := by
  obtain ⟨h1, h2⟩ := h
  refine ⟨?_, ?_⟩
  · rw [List.getElem?_append_left (List.getElem?_eq_some_iff.1 h1).1]; exact h1
  · rw [List.getElem?_append_left (List.getElem?_eq_some_iff.1 h2).1]; exact h2

theorem did_snoc {cs : List Call} {rs : List (Res W)} {j c r c' r'} (hl : cs.length = rs.length) (h : Did (cs ++ [c']) (rs ++ [r']) j c r) :
    Did cs rs j c r ∨ (j = cs.length ∧ c = c' ∧ r = r') := by
  obtain ⟨h1, h2⟩ := h
  by_cases hj : j < cs.length
  · left
    rw [List.getElem?_append_left hj] at h1
    rw [List.getElem?_append_left (by omega)] at h2
    exact ⟨h1, h2⟩
  · have hb := (List.getElem?_eq_some_iff.1 h1).1
    simp at hb
    have : j = cs.length := by omega
    subst this
    right
    refine ⟨rfl, ?_, ?_⟩
    · simpa using h1.symm
    · rw [hl] at h2; simpa using h2.symm

theorem did_last {cs : List Call} {rs : List (Res W)} {c r} (hl : cs.length = rs.length) : Did (cs ++ [c]) (rs ++ [r]) cs.length c r :=
  ⟨by simp, by rw [hl]; simp⟩

theorem did_lt {cs : List Call} {rs : List (Res W)} {j c r} (h : Did cs rs j c r) : j < cs.length := (List.getElem?_eq_some_iff.1 h.1).1

/-- What a call can do. -/
theorem run_cases {s s' : Smobs} {c : Call} {r : Res W} (h : c.run s = (r, s')) :
    (s' = s ∧ (r = .err .evalError ∨ r = .ub)) ∨
    (∃ b z, c = .makeType (.str b) (.num z) ∧ s.types.length < 256 ∧ r = .ok (.num (baseTag + s.types.length)) ∧
      s' = ⟨s.types ++ [⟨b.takeWhile (· ≠ 0), (z % 2 ^ 64).toNat⟩], s.objs⟩) ∨
    (∃ k n : Nat, ∃ d : Int, n = s.objs.length ∧ c = .make (.num (baseTag + k)) (.num d) ∧ k < s.types.length ∧ r = .ok (.smob n) ∧
      s' = ⟨s.types, s.objs ++ [⟨baseTag + k, d, 0, 0, 0⟩]⟩) := by
  cases c with
  | makeType n z =>
    cases n with
    | str b =>
      cases z with
      | num z =>
        simp only [Call.run, makeType, makeSmobType] at h
        by_cases hl : s.types.length ≥ maxSmob
        · rw [if_pos hl] at h
          cases h
          exact .inl ⟨rfl, .inl rfl⟩
        · rw [if_neg hl] at h
          cases h
          exact .inr (.inl ⟨b, z, rfl, Nat.lt_of_not_ge hl, rfl, rfl⟩)
      | _ => cases h; exact .inl ⟨rfl, .inl rfl⟩
    | _ => cases h; exact .inl ⟨rfl, .inl rfl⟩
  | make t d =>
    cases t with
    | num t =>
      cases d with
      | num d =>
        simp only [Call.run, make, makeSmob, makeSmob3, checkTag, smobNum] at h
        by_cases h1 : t - baseTag < -(2 ^ 63)
        · rw [if_pos h1] at h
          cases h
          exact .inl ⟨rfl, .inr rfl⟩
        · rw [if_neg h1] at h
          by_cases h2 : t - baseTag < 0 ∨ t - baseTag ≥ s.types.length
          · have e : (Res.ok (t - baseTag) >>= fun n : Int => if n < 0 ∨ n ≥ s.types.length then (Res.err Err.evalError : Res Unit) else pure ()) = .err .evalError := by
              show (if t - baseTag < 0 ∨ t - baseTag ≥ s.types.length then (Res.err Err.evalError : Res Unit) else pure ()) = _
              rw [if_pos h2]
            rw [e] at h
            cases h
            exact .inl ⟨rfl, .inl rfl⟩
          · have e : (Res.ok (t - baseTag) >>= fun n : Int => if n < 0 ∨ n ≥ s.types.length then (Res.err Err.evalError : Res Unit) else pure ()) = .ok () := by
              show (if t - baseTag < 0 ∨ t - baseTag ≥ s.types.length then (Res.err Err.evalError : Res Unit) else pure ()) = _
              rw [if_neg h2]
              rfl
            rw [e] at h
            cases h
            refine .inr (.inr ⟨(t - baseTag).toNat, _, d, rfl, ?_, by omega, rfl, ?_⟩)
            · rw [show baseTag + ((t - baseTag).toNat : Int) = t by omega]
            · rw [show baseTag + ((t - baseTag).toNat : Int) = t by omega]
      | _ => cases h; exact .inl ⟨rfl, .inl rfl⟩
    | _ => cases h; exact .inl ⟨rfl, .inl rfl⟩

theorem type_made {cs rs s} (h : History cs rs s) : (∀ (k : Nat) (t : SmobType), s.types[k]? = some t → ∃ j b z,
      Did cs rs j (.makeType (.str b) (.num z)) (.ok (.num (baseTag + k))) ∧ t = ⟨b.takeWhile (· ≠ 0), (z % 2 ^ 64).toNat⟩) ∧
    (∀ j b z a, Did cs rs j (.makeType b z) (.ok a) → ∃ k : Nat, a = .num (baseTag + k) ∧ k < s.types.length ∧
      ∀ j' b' z', Did cs rs j' (.makeType b' z') (.ok a) → j' = j) ∧
    s.types.length ≤ 256 := by
  induction h with
  | start => exact ⟨fun k t h => by simp at h, fun j b z a h => by simp [Did] at h, by simp⟩
  | @call cs rs s c r s' h hr ih =>
    obtain ⟨ih1, ih2, ih3⟩ := ih
    have hl := lengths h
    rcases run_cases hr with ⟨rfl, hr'⟩ | ⟨b, z, rfl, hlt, rfl, rfl⟩ | ⟨k, n, d, _, rfl, hlt, rfl, rfl⟩
    · refine ⟨fun k t ht => ?_, fun j b z a hd => ?_, ih3⟩
      · obtain ⟨j, b, z, hd, e⟩ := ih1 k t ht
        exact ⟨j, b, z, hd.append, e⟩
      · rcases did_snoc hl hd with hd | ⟨_, _, e⟩
        · obtain ⟨k, e, hk, hu⟩ := ih2 j b z a hd
          refine ⟨k, e, hk, fun j' b' z' hd' => ?_⟩
          rcases did_snoc hl hd' with hd' | ⟨_, _, e'⟩
          · exact hu j' b' z' hd'
          · rcases hr' with rfl | rfl <;> cases e'
        · rcases hr' with rfl | rfl <;> cases e
    · refine ⟨fun k t ht => ?_, fun j b1 z1 a hd => ?_, by simp; omega⟩
      · by_cases hk : k < s.types.length
        · simp only [List.getElem?_append_left hk] at ht
          obtain ⟨j, b, z, hd, e⟩ := ih1 k t ht
          exact ⟨j, b, z, hd.append, e⟩
        · have hb := (List.getElem?_eq_some_iff.1 ht).1
          simp at hb
          have : k = s.types.length := by omega
          subst this
          simp at ht
          subst ht
          exact ⟨cs.length, b, z, did_last hl, by simp⟩
      · rcases did_snoc hl hd with hd | ⟨rfl, e1, e⟩
        · obtain ⟨k, rfl, hk, hu⟩ := ih2 j b1 z1 a hd
          refine ⟨k, rfl, by simp; omega, fun j' b' z' hd' => ?_⟩
          rcases did_snoc hl hd' with hd' | ⟨_, _, e'⟩
          · exact hu j' b' z' hd'
          · simp at e'; omega
        · cases e
          refine ⟨_, rfl, by simp, fun j' b' z' hd' => ?_⟩
          rcases did_snoc hl hd' with hd' | ⟨e', _, _⟩
          · obtain ⟨k, e, hk, _⟩ := ih2 j' b' z' _ hd'
            simp at e; omega
          · exact e'
    · refine ⟨fun k t ht => ?_, fun j b z a hd => ?_, ih3⟩
      · obtain ⟨j, b, z, hd, e⟩ := ih1 k t ht
        exact ⟨j, b, z, hd.append, e⟩
      · rcases did_snoc hl hd with hd | ⟨_, e, _⟩
        · obtain ⟨k, e, hk, hu⟩ := ih2 j b z a hd
          refine ⟨k, e, hk, fun j' b' z' hd' => ?_⟩
          rcases did_snoc hl hd' with hd' | ⟨_, e', _⟩
          · exact hu j' b' z' hd'
          · cases e'
        · cases e

theorem smob_made {cs rs s} (h : History cs rs s) : ∀ j t d a, Did cs rs j (.make t d) (.ok a) → ∃ (i k : Nat) (n : Int), a = .smob i ∧
    t = .num (baseTag + k) ∧ d = .num n ∧ k < s.types.length ∧ s.objs[i]? = some ⟨baseTag + k, n, 0, 0, 0⟩ ∧ ∀ j' t' d', Did cs rs j' (.make t' d') (.ok a) → j' = j := by
  induction h with
  | start => intro j t d a h; simp [Did] at h
  | @call cs rs s c r s' h hr ih =>
    intro j t d a hd
    have hl := lengths h
    rcases run_cases hr with ⟨rfl, hr'⟩ | ⟨b, z, rfl, hlt, rfl, rfl⟩ | ⟨k, n, d1, rfl, rfl, hlt, rfl, rfl⟩
    · rcases did_snoc hl hd with hd | ⟨_, _, e⟩
      · obtain ⟨i, k, n, e1, e2, e3, h1, h2, hu⟩ := ih j t d a hd
        refine ⟨i, k, n, e1, e2, e3, h1, h2, fun j' t' d' hd' => ?_⟩
        rcases did_snoc hl hd' with hd' | ⟨_, _, e'⟩
        · exact hu j' t' d' hd'
        · rcases hr' with rfl | rfl <;> cases e'
      · rcases hr' with rfl | rfl <;> cases e
    · rcases did_snoc hl hd with hd | ⟨_, e, _⟩
      · obtain ⟨i, k, n, e1, e2, e3, h1, h2, hu⟩ := ih j t d a hd
        refine ⟨i, k, n, e1, e2, e3, by simp; omega, h2, fun j' t' d' hd' => ?_⟩
        rcases did_snoc hl hd' with hd' | ⟨_, e', _⟩
        · exact hu j' t' d' hd'
        · cases e'
      · cases e
    · rcases did_snoc hl hd with hd | ⟨rfl, e, e2⟩
      · obtain ⟨i, k', n, rfl, e2, e3, h1, h2, hu⟩ := ih j t d a hd
        have hi := (List.getElem?_eq_some_iff.1 h2).1
        refine ⟨i, k', n, rfl, e2, e3, h1, by simp only; rw [List.getElem?_append_left hi]; exact h2, fun j' t' d' hd' => ?_⟩
        rcases did_snoc hl hd' with hd' | ⟨_, _, e'⟩
        · exact hu j' t' d' hd'
        · simp at e'; omega
      · cases e
        cases e2
        refine ⟨_, k, d1, rfl, rfl, rfl, hlt, by simp, fun j' t' d' hd' => ?_⟩
        rcases did_snoc hl hd' with hd' | ⟨e', _, _⟩
        · obtain ⟨i, k', n, e, _, _, _, h2, _⟩ := ih j' t' d' _ hd'
          have hi := (List.getElem?_eq_some_iff.1 h2).1
          simp at e; omega
        · exact e'

/-! ## C136 -/

/-- C136: the answer of `scm-make-smob` is a smob no other call has answered; its tag is the answer of a call of `scm-make-smob-type`; whatever is called
afterwards, `scm-smob-data` gives the number it was made with if that type has size 0, and is an error if it has another size (in the range of integers). -/
theorem c136_data {cs rs s} (h : History cs rs s) (hr : ∀ b z, .makeType b (.num z) ∈ cs → -(2 ^ 63) ≤ z ∧ z < 2 ^ 63)
    {j : Nat} {t d a : W} (hm : Did cs rs j (.make t d) (.ok a)) :
    isSmob a = true ∧ (∀ j' t' d', Did cs rs j' (.make t' d') (.ok a) → j' = j) ∧
    ∃ k b z, Did cs rs k (.makeType (.str b) (.num z)) (.ok t) ∧ data s a = if z = 0 then .ok d else .err .evalError := by
  obtain ⟨i, k, n, rfl, rfl, rfl, hk, ho, hu⟩ := smob_made h j t d a hm
  refine ⟨rfl, hu, ?_⟩
  obtain ⟨h1, _, h3⟩ := type_made h
  obtain ⟨j', b, z, hd, e⟩ := h1 k _ (List.getElem?_eq_getElem hk)
  refine ⟨j', b, z, hd, ?_⟩
  have hz := hr (.str b) z (List.mem_of_getElem? hd.1)
  have hdesc : descriptor s (baseTag + k) = .ok (some ⟨b.takeWhile (· ≠ 0), (z % 2 ^ 64).toNat⟩) := by
    unfold descriptor smobNum
    rw [if_neg (by omega)]
    show (if baseTag + (k : Int) - baseTag < 0 ∨ baseTag + (k : Int) - baseTag ≥ s.types.length then pure Option.none else pure s.types[(baseTag + (k : Int) - baseTag).toNat]? : Res (Option SmobType)) = _
    rw [if_neg (by omega), show (baseTag + (k : Int) - baseTag).toNat = k by omega, List.getElem?_eq_getElem hk, e]
    rfl
  simp only [data, scmSmobData, ho, hdesc]
  by_cases hz0 : z = 0
  · subst hz0
    rfl
  · rw [if_neg hz0]
    show (if (z % 2 ^ 64).toNat > 0 then Res.err Err.evalError else pure n : Res Int) >>= _ = _
    rw [if_pos (by omega)]
    rfl

/-- C136: types.  Each successful `scm-make-smob-type` answers a tag no other has; it succeeds exactly for a string and an integer while fewer than 256 types
are there. -/
theorem c136_types {cs rs s} (h : History cs rs s) :
    (∀ j b z a, Did cs rs j (.makeType b z) (.ok a) → ∀ j' b' z', Did cs rs j' (.makeType b' z') (.ok a) → j' = j) ∧
    ∀ b z, (∃ t, (makeType s b z).1 = .ok t) ↔ (∃ x, b = .str x) ∧ (∃ n, z = .num n) ∧ s.types.length < 256 := by
  refine ⟨fun j b z a hd j' b' z' hd' => ?_, fun b z => ?_⟩
  · obtain ⟨_, _, _, hu⟩ := (type_made h).2.1 j b z a hd
    exact hu j' b' z' hd'
  · constructor
    · rintro ⟨t, ht⟩
      rcases run_cases (s := s) (c := .makeType b z) (r := (makeType s b z).1) (s' := (makeType s b z).2) rfl with ⟨_, h | h⟩ | ⟨x, n, e, hl, _⟩ | ⟨k, n, d, _, e, _⟩
      · rw [ht] at h; cases h
      · rw [ht] at h; cases h
      · cases e
        exact ⟨⟨x, rfl⟩, ⟨n, rfl⟩, hl⟩
      · cases e
    · rintro ⟨⟨x, rfl⟩, ⟨n, rfl⟩, hl⟩
      refine ⟨.num (baseTag + s.types.length), ?_⟩
      simp [makeType, makeSmobType, maxSmob, show ¬ (256 ≤ s.types.length) by omega]

/-- C136: a call that fails changes nothing; `scm-make-smob` succeeds exactly for a tag that a type has and an integer; `scm-smob-data` of anything but a smob
is an error, and `smob?` tells which these are. -/
theorem c136_errors (s : Smobs) (c : Call) (w : W) :
    ((∀ a, (c.run s).1 ≠ .ok a) → (c.run s).2 = s) ∧
    (∀ t d, (∃ a, (make s t d).1 = .ok a) ↔ (∃ k : Nat, t = .num (baseTag + k) ∧ k < s.types.length) ∧ ∃ n, d = .num n) ∧
    ((∀ i, w ≠ .smob i) → data s w = .err .evalError) ∧ (isSmob w = true ↔ ∃ i, w = .smob i) := by
  refine ⟨fun hf => ?_, fun t d => ⟨?_, ?_⟩, fun hw => ?_, ?_⟩
  · rcases run_cases (s := s) (c := c) (r := (c.run s).1) (s' := (c.run s).2) rfl with ⟨e, _⟩ | ⟨_, _, _, _, e, _⟩ | ⟨_, _, _, _, _, _, e, _⟩
    · exact e
    · exact absurd e (hf _)
    · exact absurd e (hf _)
  · rintro ⟨a, ha⟩
    rcases run_cases (s := s) (c := .make t d) (r := (make s t d).1) (s' := (make s t d).2) rfl with ⟨_, h | h⟩ | ⟨_, _, e, _⟩ | ⟨k, n, x, _, e, hk, _⟩
    · rw [ha] at h; cases h
    · rw [ha] at h; cases h
    · cases e
    · cases e
      exact ⟨⟨k, rfl, hk⟩, x, rfl⟩
  · rintro ⟨⟨k, rfl, hk⟩, n, rfl⟩
    refine ⟨.smob s.objs.length, ?_⟩
    have hc : checkTag s (baseTag + k) = .ok () := by
      unfold checkTag smobNum
      rw [if_neg (by omega)]
      show (if baseTag + (k : Int) - baseTag < 0 ∨ baseTag + (k : Int) - baseTag ≥ s.types.length then Res.err Err.evalError else pure () : Res Unit) = _
      rw [if_neg (by omega)]
      rfl
    simp [make, makeSmob, makeSmob3, hc]
  · cases w <;> first | rfl | exact absurd rfl (hw _)
  · cases w <;> simp [isSmob]

/-- C136 fails for tags near the smallest integer: `(scm-make-smob -9223372036854775808 0)` overflows a signed subtraction, in every state. -/
theorem c136_tag_overflow (s : Smobs) (t n : Int) (ht : t < -(2 ^ 63) + baseTag) : (make s (.num t) (.num n)).1 = .ub := by
  have : smobNum t = .ub := by unfold smobNum; rw [if_pos (by omega)]
  simp only [make, makeSmob, makeSmob3, checkTag, this]
  rfl

/-! ## Examples -/

/-- Two types, of sizes 0 and 8, and a smob of each. -/
example : ∃ s, History [.makeType (.str [97]) (.num 0), .makeType (.str [98]) (.num 8), .make (.num 16777216) (.num 5), .make (.num 16777217) (.num 6)]
    [.ok (.num 16777216), .ok (.num 16777217), .ok (.smob 0), .ok (.smob 1)] s ∧ data s (.smob 0) = .ok (.num 5) ∧ data s (.smob 1) = .err .evalError :=
  ⟨_, .call (.call (.call (.call .start rfl) rfl) rfl) rfl, rfl, rfl⟩

/-- A tag for which the subtraction overflows is an integer of the language. -/
example : (make ⟨[], []⟩ (.num (-(2 ^ 63))) (.num 0)).1 = .ub := c136_tag_overflow _ _ _ (by decide)

end Pscm.SmS
