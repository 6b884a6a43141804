import Verif.RefImpl2
/-! # The builtins on characters, symbols and strings implement their specification -/
namespace Pscm.Ref
open Pscm.Ev hiding Name Form evalForm
variable {σ : Type} {P : Prims σ} {F : FArith} {W : World} {s : St σ}

theorem stdCall_text {x : Name} {ws : List V} {r : Res V} (h1 : listCall x ws = none) (h2 : moreCall x ws = textCall x ws) (h3 : textCall x ws = some r) :
    stdCall F x ws = some r := by
  unfold stdCall
  rw [h1, h2, h3]

theorem rel_not_chr {v : Val} {w : V} (h : VRel Registered W v w) (hn : ∀ c, v ≠ .chr c) : ∀ c, w ≠ .chr c := by
  intro c hc
  subst hc
  cases v with
  | chr c => exact hn c rfl
  | undefined => cases h
  | unassigned => cases h
  | pair a d => obtain ⟨_, _, h, _⟩ := h; cases h
  | prim x => obtain ⟨_, _, h⟩ := h; cases h
  | clo ps rest body ρ => obtain ⟨_, h, _⟩ := h; cases h
  | _ => cases h

theorem rel_not_str {v : Val} {w : V} (h : VRel Registered W v w) (hn : ∀ c, v ≠ .str c) : ∀ c, w ≠ .str c := by
  intro c hc
  subst hc
  cases v with
  | str c => exact hn c rfl
  | undefined => cases h
  | unassigned => cases h
  | pair a d => obtain ⟨_, _, h, _⟩ := h; cases h
  | prim x => obtain ⟨_, _, h⟩ := h; cases h
  | clo ps rest body ρ => obtain ⟨_, h, _⟩ := h; cases h
  | _ => cases h

theorem rel_not_num {v : Val} {w : V} (h : VRel Registered W v w) (hn : ∀ c, v ≠ .num c) : ∀ c, w ≠ .num c := by
  intro c hc
  subst hc
  cases v with
  | num c => exact hn c rfl
  | undefined => cases h
  | unassigned => cases h
  | pair a d => obtain ⟨_, _, h, _⟩ := h; cases h
  | prim x => obtain ⟨_, _, h⟩ := h; cases h
  | clo ps rest body ρ => obtain ⟨_, h, _⟩ := h; cases h
  | _ => cases h

theorem byteChars_fits {s : String} (h : Fits s.toList) : byteChars s = some s.toList := by
  unfold byteChars
  rw [if_pos]
  rw [List.all_eq_true]
  intro c hc
  exact decide_eq_true (h.1 c hc)

/-! ## One argument -/

/-- What is to be shown of a builtin of one argument. -/
def Good1 (F : FArith) (x : Name) (f : Val → Ret Val) : Prop :=
  ∀ {W : World} {v : Val} {w : V}, VRel Registered W v w →
    (∀ u, f v = .val u → ∃ w', textCall x [w] = some (.ok w') ∧ VRel Registered W u w') ∧ (f v = .error → ∃ e, textCall x [w] = some (.err e))

theorem impl_text1 (hP : HasStd P F) {x : Name} (hx : x ∈ stdNames) (ha : stdArity x = 1) {f : Val → Ret Val} (hf : stdAp x = unary f)
    (h1 : ∀ w, listCall x [w] = none) (h2 : ∀ w, moreCall x [w] = textCall x [w]) (H : Good1 F x f) : Impl P x := by
  refine impl_unary hP hx ha hf fun {W v w} h => ?_
  obtain ⟨a, b⟩ := H h
  refine ⟨fun u hu => ?_, fun he => ?_⟩
  · obtain ⟨w', k, r⟩ := a u hu
    exact ⟨w', stdCall_text (h1 w) (h2 w) k, r⟩
  · obtain ⟨e, k⟩ := b he
    exact ⟨e, stdCall_text (h1 w) (h2 w) k⟩

theorem impl_chars (hP : HasStd P F) : Impl P "char->integer" ∧ Impl P "integer->char" := by
  refine ⟨impl_text1 hP (by decide) (by decide) rfl (fun _ => rfl) (fun _ => rfl) fun {W v w} h => ?_,
    impl_text1 hP (by decide) (by decide) rfl (fun _ => rfl) (fun _ => rfl) fun {W v w} h => ?_⟩
  · cases v with
    | chr c => cases h; exact ⟨fun u hu => by cases hu; exact ⟨_, rfl, rfl⟩, fun he => by cases he⟩
    | undefined => cases h
    | unassigned => cases h
    | pair a d => obtain ⟨_, _, rfl, _⟩ := h; exact ⟨fun u hu => (by cases hu), fun _ => ⟨_, rfl⟩⟩
    | prim x => obtain ⟨_, _, rfl⟩ := h; exact ⟨fun u hu => (by cases hu), fun _ => ⟨_, rfl⟩⟩
    | clo ps rest body ρ => obtain ⟨_, rfl, _⟩ := h; exact ⟨fun u hu => (by cases hu), fun _ => ⟨_, rfl⟩⟩
    | _ => cases h; exact ⟨fun u hu => (by cases hu), fun _ => ⟨_, rfl⟩⟩
  · cases v with
    | num n =>
      cases h
      simp only [textCall]
      by_cases hn : 0 ≤ n ∧ n < 256
      · rw [if_pos hn, if_neg (by omega)]
        exact ⟨fun u hu => by cases hu; exact ⟨_, rfl, rfl⟩, fun he => by cases he⟩
      · rw [if_neg hn, if_pos (by omega)]
        exact ⟨fun u hu => (by cases hu), fun _ => ⟨_, rfl⟩⟩
    | undefined => cases h
    | unassigned => cases h
    | pair a d => obtain ⟨_, _, rfl, _⟩ := h; exact ⟨fun u hu => (by cases hu), fun _ => ⟨_, rfl⟩⟩
    | prim x => obtain ⟨_, _, rfl⟩ := h; exact ⟨fun u hu => (by cases hu), fun _ => ⟨_, rfl⟩⟩
    | clo ps rest body ρ => obtain ⟨_, rfl, _⟩ := h; exact ⟨fun u hu => (by cases hu), fun _ => ⟨_, rfl⟩⟩
    | _ => cases h; exact ⟨fun u hu => (by cases hu), fun _ => ⟨_, rfl⟩⟩

theorem noNul_iff {s : String} : s.toList.contains '\x00' = true ↔ ¬ NoNul s := by
  rw [List.contains_iff_mem]
  constructor
  · intro h k; exact k _ h rfl
  · intro h
    refine Classical.byContradiction fun k => h fun c hc e => ?_
    subst e
    exact k hc

theorem impl_symbols (hP : HasStd P F) : Impl P "symbol->string" ∧ Impl P "string->symbol" := by
  refine ⟨impl_text1 hP (by decide) (by decide) rfl (fun _ => rfl) (fun _ => rfl) fun {W v w} h => ?_,
    impl_text1 hP (by decide) (by decide) rfl (fun _ => rfl) (fun _ => rfl) fun {W v w} h => ?_⟩
  · cases v with
    | sym c => cases h; exact ⟨fun u hu => by cases hu; exact ⟨_, rfl, rfl⟩, fun he => by cases he⟩
    | undefined => cases h
    | unassigned => cases h
    | pair a d => obtain ⟨_, _, rfl, _⟩ := h; exact ⟨fun u hu => (by cases hu), fun _ => ⟨_, rfl⟩⟩
    | prim x => obtain ⟨_, _, rfl⟩ := h; exact ⟨fun u hu => (by cases hu), fun _ => ⟨_, rfl⟩⟩
    | clo ps rest body ρ => obtain ⟨_, rfl, _⟩ := h; exact ⟨fun u hu => (by cases hu), fun _ => ⟨_, rfl⟩⟩
    | _ => cases h; exact ⟨fun u hu => (by cases hu), fun _ => ⟨_, rfl⟩⟩
  · cases v with
    | str s =>
      cases h
      simp only [textCall]
      by_cases hn : NoNul s
      · rw [if_pos hn, if_neg (by rw [noNul_iff]; exact fun k => k hn)]
        exact ⟨fun u hu => by cases hu; exact ⟨_, rfl, rfl⟩, fun he => by cases he⟩
      · rw [if_neg hn]
        exact ⟨fun u hu => (by cases hu), fun he => by cases he⟩
    | undefined => cases h
    | unassigned => cases h
    | pair a d => obtain ⟨_, _, rfl, _⟩ := h; exact ⟨fun u hu => (by cases hu), fun _ => ⟨_, rfl⟩⟩
    | prim x => obtain ⟨_, _, rfl⟩ := h; exact ⟨fun u hu => (by cases hu), fun _ => ⟨_, rfl⟩⟩
    | clo ps rest body ρ => obtain ⟨_, rfl, _⟩ := h; exact ⟨fun u hu => (by cases hu), fun _ => ⟨_, rfl⟩⟩
    | _ => cases h; exact ⟨fun u hu => (by cases hu), fun _ => ⟨_, rfl⟩⟩

theorem chrs_rel (cs : List Char) : VRels Registered W (cs.map fun c => Val.chr (byteOf c)) (cs.map fun c => V.chr (UInt8.ofNat c.toNat)) := by
  induction cs with
  | nil => exact .nil
  | cons c cs ih => exact .cons rfl ih

theorem impl_texts (hP : HasStd P F) : Impl P "string-length" ∧ Impl P "string->list" := by
  refine ⟨impl_text1 hP (by decide) (by decide) rfl (fun _ => rfl) (fun _ => rfl) fun {W v w} h => ?_,
    impl_text1 hP (by decide) (by decide) rfl (fun _ => rfl) (fun _ => rfl) fun {W v w} h => ?_⟩
  · cases v with
    | str s =>
      cases h
      simp only [textCall, onText]
      by_cases hn : Fits s.toList
      · have := hn.2
        rw [if_pos hn, byteChars_fits hn]
        simp only [Option.bind_some]
        rw [if_pos (by omega)]
        exact ⟨fun u hu => by cases hu; exact ⟨_, rfl, rfl⟩, fun he => by cases he⟩
      · rw [if_neg hn]
        exact ⟨fun u hu => (by cases hu), fun he => by cases he⟩
    | undefined => cases h
    | unassigned => cases h
    | pair a d => obtain ⟨_, _, rfl, _⟩ := h; exact ⟨fun u hu => (by cases hu), fun _ => ⟨_, rfl⟩⟩
    | prim x => obtain ⟨_, _, rfl⟩ := h; exact ⟨fun u hu => (by cases hu), fun _ => ⟨_, rfl⟩⟩
    | clo ps rest body ρ => obtain ⟨_, rfl, _⟩ := h; exact ⟨fun u hu => (by cases hu), fun _ => ⟨_, rfl⟩⟩
    | _ => cases h; exact ⟨fun u hu => (by cases hu), fun _ => ⟨_, rfl⟩⟩
  · cases v with
    | str s =>
      cases h
      simp only [textCall, onText]
      by_cases hn : Fits s.toList
      · rw [if_pos hn, byteChars_fits hn]
        exact ⟨fun u hu => by cases hu; exact ⟨_, rfl, list_rel (chrs_rel _)⟩, fun he => by cases he⟩
      · rw [if_neg hn]
        exact ⟨fun u hu => (by cases hu), fun he => by cases he⟩
    | undefined => cases h
    | unassigned => cases h
    | pair a d => obtain ⟨_, _, rfl, _⟩ := h; exact ⟨fun u hu => (by cases hu), fun _ => ⟨_, rfl⟩⟩
    | prim x => obtain ⟨_, _, rfl⟩ := h; exact ⟨fun u hu => (by cases hu), fun _ => ⟨_, rfl⟩⟩
    | clo ps rest body ρ => obtain ⟨_, rfl, _⟩ := h; exact ⟨fun u hu => (by cases hu), fun _ => ⟨_, rfl⟩⟩
    | _ => cases h; exact ⟨fun u hu => (by cases hu), fun _ => ⟨_, rfl⟩⟩

/-! ## Lists of characters -/

theorem chars_rel {vs : List Val} {ws : List V} (h : VRels Registered W vs ws) : charsOf ws = chars vs := by
  induction h with
  | nil => rfl
  | @cons v vs w ws hv hvs ih =>
    by_cases hc : ∃ c, v = .chr c
    · obtain ⟨c, rfl⟩ := hc
      cases hv
      simp only [charsOf, chars, ih, charOf]
    · have h1 : ∀ c, w ≠ .chr c := rel_not_chr hv fun c e => hc ⟨c, e⟩
      have e1 : charsOf (w :: ws) = none := by
        unfold charsOf
        split
        · rename_i h; cases h
        · rename_i c _ h; cases h; exact absurd rfl (h1 c)
        · rfl
      have e2 : chars (v :: vs) = none := by
        unfold chars
        split
        · rename_i h; cases h
        · rename_i c _ h; cases h; exact absurd ⟨_, rfl⟩ hc
        · rfl
      rw [e1, e2]

theorem spell_rel {vs : List Val} {ws : List V} (h : VRels Registered W vs ws) :
    (∀ u, spell vs = .val u → ∃ w', ofChars ws = some (.ok w') ∧ VRel Registered W u w') ∧ (spell vs = .error → ∃ e, ofChars ws = some (.err e)) := by
  unfold spell ofChars
  rw [chars_rel h, ← h.length]
  by_cases hn : vs.length < 2 ^ 31 - 1
  · rw [if_pos hn, if_pos (by omega)]
    cases chars vs with
    | none => exact ⟨fun u hu => (by cases hu), fun _ => ⟨_, rfl⟩⟩
    | some cs => exact ⟨fun u hu => by cases hu; exact ⟨_, rfl, rfl⟩, fun he => by cases he⟩
  · rw [if_neg hn]
    exact ⟨fun u hu => (by cases hu), fun he => by cases he⟩

theorem impl_listString (hP : HasStd P F) : Impl P "list->string" := by
  refine impl_text1 hP (by decide) (by decide) rfl (fun _ => rfl) (fun _ => rfl) fun {W v w} h => ?_
  cases hl : v.elems with
  | none => exact ⟨fun u hu => (by cases hu), fun he => by cases he⟩
  | some vs =>
    obtain ⟨ws, rfl, hws⟩ := elems_rel h hl
    cases hws with
    | nil => exact ⟨fun u hu => by cases hu; exact ⟨_, rfl, rfl⟩, fun he => by cases he⟩
    | @cons v' vs w' ws hv hvs =>
      have := spell_rel (.cons hv hvs)
      have e : textCall "list->string" [listOf (w' :: ws)] = ofChars (w' :: ws) := by
        show ofChars (nodes (listOf (w' :: ws))) = _
        rw [nodes_listOf]
      rw [e]
      exact this

theorem joined_rel {vs : List Val} {ws : List V} (h : VRels Registered W vs ws) (acc : List Char) (ha : acc.length < 2 ^ 31 - 1) :
    (∀ u, joined acc vs = .val u → ∃ w', joinChars acc ws = some (.ok w') ∧ VRel Registered W u w') ∧ (joined acc vs = .error → ∃ e, joinChars acc ws = some (.err e)) := by
  induction h generalizing acc with
  | nil =>
    unfold joined joinChars
    rw [if_pos (by omega)]
    exact ⟨fun u hu => by cases hu; exact ⟨_, rfl, rfl⟩, fun he => by cases he⟩
  | @cons v vs w ws hv hvs ih =>
    by_cases hc : ∃ c, v = .str c
    · obtain ⟨s, rfl⟩ := hc
      cases hv
      simp only [joined, joinChars]
      by_cases hf : Fits (acc ++ s.toList)
      · have hl := hf.2
        rw [List.length_append] at hl
        have hb : Fits s.toList := ⟨fun c hc => hf.1 c (List.mem_append_right _ hc), by omega⟩
        rw [if_pos hf, byteChars_fits hb]
        simp only []
        rw [if_pos (by omega)]
        exact ih _ hf.2
      · rw [if_neg hf]
        exact ⟨fun u hu => (by cases hu), fun he => by cases he⟩
    · have h1 : ∀ c, w ≠ .str c := rel_not_str hv fun c e => hc ⟨c, e⟩
      have e1 : joinChars acc (w :: ws) = some (.err .evalError) := by
        unfold joinChars
        split
        · rename_i h; cases h
        · rename_i c _ h; cases h; exact absurd rfl (h1 c)
        · rfl
      have e2 : joined acc (v :: vs) = .error := by
        unfold joined
        split
        · rename_i h; cases h
        · rename_i c _ h; cases h; exact absurd ⟨_, rfl⟩ hc
        · rfl
      rw [e1, e2]
      exact ⟨fun u hu => (by cases hu), fun _ => ⟨_, rfl⟩⟩

theorem impl_joins (hP : HasStd P F) : Impl P "string-append" ∧ Impl P "string" := by
  have hl : ∀ x ∈ ["string-append", "string"], ∀ ws, listCall x ws = none := by
    intro x hx ws
    unfold listCall
    split <;> first | rfl | exact absurd hx (by decide)
  refine ⟨impl_list hP (by decide) (by decide) fun {W vs ws} hvs => ?_, impl_list hP (by decide) (by decide) fun {W vs ws} hvs => ?_⟩
  · obtain ⟨a, b⟩ := joined_rel hvs [] (by decide)
    have m : moreCall "string-append" ws = textCall "string-append" ws := by
      match ws with
      | [] => rfl
      | [_] => rfl
      | [_, _] => rfl
      | _ :: _ :: _ :: _ => rfl
    have t : textCall "string-append" ws = joinChars [] ws := by
      match ws with
      | [] => rfl
      | [_] => rfl
      | [_, _] => rfl
      | [_, _, _] => rfl
      | _ :: _ :: _ :: _ :: _ => rfl
    refine ⟨fun u hu => ?_, fun he => ?_⟩
    · obtain ⟨w', k, r⟩ := a u hu
      exact ⟨w', stdCall_text (hl _ (by decide) ws) m (t.trans k), r⟩
    · obtain ⟨e, k⟩ := b he
      exact ⟨e, stdCall_text (hl _ (by decide) ws) m (t.trans k)⟩
  · obtain ⟨a, b⟩ := spell_rel hvs
    have m : moreCall "string" ws = textCall "string" ws := by
      match ws with
      | [] => rfl
      | [_] => rfl
      | [_, _] => rfl
      | _ :: _ :: _ :: _ => rfl
    have t : textCall "string" ws = ofChars ws := by
      match ws with
      | [] => rfl
      | [_] => rfl
      | [_, _] => rfl
      | [_, _, _] => rfl
      | _ :: _ :: _ :: _ :: _ => rfl
    refine ⟨fun u hu => ?_, fun he => ?_⟩
    · obtain ⟨w', k, r⟩ := a u hu
      exact ⟨w', stdCall_text (hl _ (by decide) ws) m (t.trans k), r⟩
    · obtain ⟨e, k⟩ := b he
      exact ⟨e, stdCall_text (hl _ (by decide) ws) m (t.trans k)⟩

/-! ## Two and three arguments -/

theorem impl_charTest (hP : HasStd P F) {x : Name} (hx : x ∈ stdNames) (ha : stdArity x = 2) {r : Nat → Nat → Bool} {r' : UInt8 → UInt8 → Bool}
    (hs : stdAp x = charTest r) (h1 : ∀ a b, listCall x [a, b] = none) (h2 : ∀ a b, moreCall x [a, b] = textCall x [a, b])
    (h3 : ∀ a b, textCall x [a, b] = Ev.charCmp r' [a, b]) (hr : ∀ a b, r a.toNat b.toNat = r' a b) : Impl P x := by
  refine impl_binary hP hx ha hs fun {W v1 v2 w1 w2} k1 k2 => ?_
  have fin : ∀ {q}, Ev.charCmp r' [w1, w2] = some q → stdCall F x [w1, w2] = some q := fun h => stdCall_text (h1 _ _) (h2 _ _) ((h3 _ _).trans h)
  by_cases c1 : ∃ c, v1 = .chr c
  · obtain ⟨a, rfl⟩ := c1
    by_cases c2 : ∃ c, v2 = .chr c
    · obtain ⟨b, rfl⟩ := c2
      cases k1
      cases k2
      exact ⟨fun u hu => by cases hu; exact ⟨_, fin rfl, by rw [hr]; rfl⟩, fun he => by cases he⟩
    · have n2 := rel_not_chr k2 fun c e => c2 ⟨c, e⟩
      have e : Ev.charCmp r' [w1, w2] = some (.err .evalError) := by
        unfold Ev.charCmp
        split
        · rename_i h; cases h; exact absurd rfl (n2 _)
        · rfl
        · rename_i _ h; exact absurd rfl (h w1 w2)
      refine ⟨fun u hu => ?_, fun _ => ⟨_, fin e⟩⟩
      cases v2 <;> first | exact absurd ⟨_, rfl⟩ c2 | cases hu
  · have n1 := rel_not_chr k1 fun c e => c1 ⟨c, e⟩
    have e : Ev.charCmp r' [w1, w2] = some (.err .evalError) := by
      unfold Ev.charCmp
      split
      · rename_i h; cases h; exact absurd rfl (n1 _)
      · rfl
      · rename_i _ h; exact absurd rfl (h w1 w2)
    refine ⟨fun u hu => ?_, fun _ => ⟨_, fin e⟩⟩
    cases v1 <;> first | exact absurd ⟨_, rfl⟩ c1 | cases hu

theorem impl_charTests (hP : HasStd P F) : Impl P "char=?" ∧ Impl P "char<?" ∧ Impl P "char>?" ∧ Impl P "char<=?" ∧ Impl P "char>=?" := by
  refine ⟨impl_charTest hP (r := fun a b => decide (a = b)) (by decide) (by decide) (by rfl) (fun _ _ => rfl) (fun _ _ => rfl) (fun _ _ => rfl) fun a b => ?_,
    impl_charTest hP (r := fun a b => decide (a < b)) (by decide) (by decide) (by rfl) (fun _ _ => rfl) (fun _ _ => rfl) (fun _ _ => rfl) fun a b => ?_,
    impl_charTest hP (r := fun a b => decide (a > b)) (by decide) (by decide) (by rfl) (fun _ _ => rfl) (fun _ _ => rfl) (fun _ _ => rfl) fun a b => ?_,
    impl_charTest hP (r := fun a b => decide (a ≤ b)) (by decide) (by decide) (by rfl) (fun _ _ => rfl) (fun _ _ => rfl) (fun _ _ => rfl) fun a b => ?_,
    impl_charTest hP (r := fun a b => decide (a ≥ b)) (by decide) (by decide) (by rfl) (fun _ _ => rfl) (fun _ _ => rfl) (fun _ _ => rfl) fun a b => ?_⟩
  · have : a.toNat = b.toNat ↔ a = b := UInt8.toNat_inj
    simp [this]
  all_goals rfl

theorem impl_stringEq (hP : HasStd P F) : Impl P "string=?" := by
  refine impl_binary hP (by decide) (by decide) rfl fun {W v1 v2 w1 w2} k1 k2 => ?_
  have fin : ∀ {q}, textCall "string=?" [w1, w2] = some q → stdCall F "string=?" [w1, w2] = some q := fun h => stdCall_text rfl rfl h
  by_cases c1 : ∃ c, v1 = .str c
  · obtain ⟨a, rfl⟩ := c1
    by_cases c2 : ∃ c, v2 = .str c
    · obtain ⟨b, rfl⟩ := c2
      cases k1
      cases k2
      simp only []
      by_cases hn : NoNul a ∧ NoNul b
      · rw [if_pos hn]
        refine ⟨fun u hu => ?_, fun he => by cases he⟩
        cases hu
        refine ⟨.bool (decide (a = b)), fin ?_, rfl⟩
        have h0 : ¬ (a.toList.contains '\x00' = true ∨ b.toList.contains '\x00' = true) := by
          rw [noNul_iff, noNul_iff]
          rintro (h | h)
          · exact h hn.1
          · exact h hn.2
        simp only [textCall]
        rw [if_neg h0]
        by_cases he : a = b
        · subst he; simp
        · simp [he]
      · rw [if_neg hn]
        exact ⟨fun u hu => (by cases hu), fun he => by cases he⟩
    · have n2 := rel_not_str k2 fun c e => c2 ⟨c, e⟩
      have e : textCall "string=?" [w1, w2] = some (.err .evalError) := by
        cases k1
        cases w2 <;> first | rfl | exact absurd rfl (n2 _)
      refine ⟨fun u hu => ?_, fun _ => ⟨_, fin e⟩⟩
      cases v2 <;> first | exact absurd ⟨_, rfl⟩ c2 | cases hu
  · have n1 := rel_not_str k1 fun c e => c1 ⟨c, e⟩
    have e : textCall "string=?" [w1, w2] = some (.err .evalError) := by
      cases w1 <;> first | rfl | exact absurd rfl (n1 _)
    refine ⟨fun u hu => ?_, fun _ => ⟨_, fin e⟩⟩
    cases v1 <;> first | exact absurd ⟨_, rfl⟩ c1 | cases hu

theorem impl_stringRef (hP : HasStd P F) : Impl P "string-ref" := by
  refine impl_binary hP (by decide) (by decide) rfl fun {W v1 v2 w1 w2} k1 k2 => ?_
  have fin : ∀ {q}, textCall "string-ref" [w1, w2] = some q → stdCall F "string-ref" [w1, w2] = some q := fun h => stdCall_text rfl rfl h
  by_cases c1 : ∃ c, v1 = .str c
  · obtain ⟨a, rfl⟩ := c1
    by_cases c2 : ∃ c, v2 = .num c
    · obtain ⟨k, rfl⟩ := c2
      cases k1
      cases k2
      simp only [onText]
      by_cases hn : Fits a.toList
      · rw [if_pos hn]
        have e : textCall "string-ref" [.str a, .num k] = some (if k < 0 ∨ (a.toList.length : Int) ≤ k then .err .evalError
            else match a.toList[k.toNat]? with
              | some c => .ok (.chr (UInt8.ofNat c.toNat))
              | none => .ub) := by
          simp only [textCall, byteChars_fits hn]
          rfl
        by_cases hk : k < 0
        · rw [if_pos hk]
          exact ⟨fun u hu => (by cases hu), fun _ => ⟨_, fin (by rw [e, if_pos (.inl hk)])⟩⟩
        · rw [if_neg hk]
          cases hc : a.toList[k.toNat]? with
          | none =>
            rw [List.getElem?_eq_none_iff] at hc
            exact ⟨fun u hu => (by cases hu), fun _ => ⟨_, fin (by rw [e, if_pos (.inr (by omega))])⟩⟩
          | some c =>
            have hlt := (List.getElem?_eq_some_iff.1 hc).1
            refine ⟨fun u hu => ?_, fun he => by cases he⟩
            cases hu
            exact ⟨.chr (byteOf c), fin (by rw [e, if_neg (by omega), hc]; rfl), rfl⟩
      · rw [if_neg hn]
        exact ⟨fun u hu => (by cases hu), fun he => by cases he⟩
    · have n2 := rel_not_num k2 fun c e => c2 ⟨c, e⟩
      have e : textCall "string-ref" [w1, w2] = some (.err .evalError) := by
        cases k1
        cases w2 <;> first | rfl | exact absurd rfl (n2 _)
      refine ⟨fun u hu => ?_, fun _ => ⟨_, fin e⟩⟩
      cases v2 <;> first | exact absurd ⟨_, rfl⟩ c2 | cases hu
  · have n1 := rel_not_str k1 fun c e => c1 ⟨c, e⟩
    have e : textCall "string-ref" [w1, w2] = some (.err .evalError) := by
      cases w1 <;> first | rfl | exact absurd rfl (n1 _)
    refine ⟨fun u hu => ?_, fun _ => ⟨_, fin e⟩⟩
    cases v1 <;> first | exact absurd ⟨_, rfl⟩ c1 | cases hu

theorem impl_substring (hP : HasStd P F) : Impl P "substring" := by
  refine impl_ternary hP (by decide) (by decide) rfl fun {W v1 v2 v3 w1 w2 w3} k1 k2 k3 => ?_
  have fin : ∀ {q}, textCall "substring" [w1, w2, w3] = some q → stdCall F "substring" [w1, w2, w3] = some q := fun h => stdCall_text rfl rfl h
  by_cases c1 : ∃ c, v1 = .str c
  · obtain ⟨a, rfl⟩ := c1
    by_cases c2 : ∃ c, v2 = .num c
    · obtain ⟨i, rfl⟩ := c2
      by_cases c3 : ∃ c, v3 = .num c
      · obtain ⟨j, rfl⟩ := c3
        cases k1
        cases k2
        cases k3
        simp only [onText]
        by_cases hn : Fits a.toList
        · rw [if_pos hn]
          have e : textCall "substring" [.str a, .num i, .num j] = some (if i < 0 ∨ (a.toList.length : Int) < i then .err .evalError
              else if j < i ∨ (a.toList.length : Int) < j then .err .evalError
              else .ok (.str (String.ofList ((a.toList.drop i.toNat).take (j - i).toNat)))) := by
            simp only [textCall, byteChars_fits hn]
            rfl
          by_cases hk : 0 ≤ i ∧ i ≤ j ∧ j ≤ a.toList.length
          · rw [if_pos hk]
            refine ⟨fun u hu => ?_, fun he => by cases he⟩
            cases hu
            refine ⟨_, fin (by rw [e, if_neg (by omega), if_neg (by omega)]), ?_⟩
            have : (a.toList.take j.toNat).drop i.toNat = (a.toList.drop i.toNat).take (j - i).toNat := by
              rw [List.drop_take]
              congr 1
              omega
            rw [this]
            rfl
          · rw [if_neg hk]
            refine ⟨fun u hu => (by cases hu), fun _ => ⟨.evalError, fin ?_⟩⟩
            rw [e]
            by_cases hi : i < 0 ∨ (a.toList.length : Int) < i
            · rw [if_pos hi]
            · rw [if_neg hi, if_pos (by omega)]
        · rw [if_neg hn]
          exact ⟨fun u hu => (by cases hu), fun he => by cases he⟩
      · have n3 := rel_not_num k3 fun c e => c3 ⟨c, e⟩
        have e : textCall "substring" [w1, w2, w3] = some (.err .evalError) := by
          cases k1
          cases k2
          cases w3 <;> first | rfl | exact absurd rfl (n3 _)
        refine ⟨fun u hu => ?_, fun _ => ⟨_, fin e⟩⟩
        cases v3 <;> first | exact absurd ⟨_, rfl⟩ c3 | cases hu
    · have n2 := rel_not_num k2 fun c e => c2 ⟨c, e⟩
      have e : textCall "substring" [w1, w2, w3] = some (.err .evalError) := by
        cases k1
        cases w2 <;> first | rfl | exact absurd rfl (n2 _)
      refine ⟨fun u hu => ?_, fun _ => ⟨_, fin e⟩⟩
      cases v2 <;> first | exact absurd ⟨_, rfl⟩ c2 | cases hu
  · have n1 := rel_not_str k1 fun c e => c1 ⟨c, e⟩
    have e : textCall "substring" [w1, w2, w3] = some (.err .evalError) := by
      cases w1 <;> first | rfl | exact absurd rfl (n1 _)
    refine ⟨fun u hu => ?_, fun _ => ⟨_, fin e⟩⟩
    cases v1 <;> first | exact absurd ⟨_, rfl⟩ c1 | cases hu

end Pscm.Ref
