import Verif.ContMem

/-!
# C127: calling a continuation restores the C stack

Theorems about `Verif.ContMem`.  "The same stack" is stated word by word: every word that was alive when the continuation was captured (address at or above the
top of the stack then) has the value it had then.
-/

namespace Pscm.Cm

variable {H : Type}

/-! ## Specification -/

/-- The program stays below the address `b`: it neither stores to a word at or above `b` nor returns from the function in whose frame `b` lies. -/
def StaysBelow (b : Nat) : Act H → Prop
  | .store a _ => a < b
  | .move t => t ≤ b
  | _ => True

/-! ## Lemmas -/

theorem slice_length (m : Nat → Nat) (a n : Nat) : (slice m a n).length = n := by
  induction n generalizing a with
  | zero => rfl
  | succ n ih => simp [slice, ih]

theorem slice_get (m : Nat → Nat) (a n i : Nat) (h : i < n) : (slice m a n)[i]? = some (m (a + i)) := by
  induction n generalizing a i with
  | zero => omega
  | succ n ih =>
    cases i with
    | zero => simp [slice]
    | succ i => simp only [slice, List.getElem?_cons_succ]; rw [ih (a + 1) i (by omega)]; congr 2; omega

theorem blit_out (m : Nat → Nat) (dst : Nat) (ws : List Nat) (a : Nat) (h : a < dst ∨ dst + ws.length ≤ a) : blit m dst ws a = m a := by
  induction ws generalizing dst with
  | nil => rfl
  | cons w ws ih =>
    simp only [List.length_cons] at h
    have : a ≠ dst := by omega
    simp only [blit, if_neg this]
    exact ih (dst + 1) (by omega)

theorem blit_in (m : Nat → Nat) (dst : Nat) (ws : List Nat) (i : Nat) (h : i < ws.length) : some (blit m dst ws (dst + i)) = ws[i]? := by
  induction ws generalizing dst i with
  | nil => simp at h
  | cons w ws ih =>
    cases i with
    | zero => simp [blit]
    | succ i =>
      have h1 : dst + (i + 1) ≠ dst := by omega
      simp only [blit, if_neg h1, List.getElem?_cons_succ]
      rw [← ih (dst + 1) i (by simpa using h)]
      congr 2; omega

theorem blit_slice (m m' : Nat → Nat) (src n a : Nat) (h1 : src ≤ a) (h2 : a < src + n) : blit m src (slice m' src n) a = m' a := by
  obtain ⟨i, rfl⟩ := Nat.exists_eq_add_of_le h1
  have := blit_in m src (slice m' src n) i (by rw [slice_length]; omega)
  rw [slice_get m' src n i (by omega)] at this
  exact Option.some.inj this

theorem copyBack_inv (F : Frames) (c : Cont) (id v l : Nat) (junk : Nat → Nat) (s : St H) (hl : l < c.src) :
    copyBack F c id v l junk s = .overflow ∨
    copyBack F c id v l junk s = .resumed id v c.regs { s with
      mem := blit (fun a => if a < s.top then junk a else s.mem a) c.src c.data, top := c.sp, module := c.module } := by
  unfold copyBack
  split
  · exact .inl rfl
  · rw [if_neg (by omega)]; exact .inr rfl

theorem dynthrow_inv (F : Frames) (c : Cont) (id v : Nat) (junk : Nat → Nat) (s : St H) (t : Nat) :
    dynthrow F c id v junk s t = .overflow ∨
    dynthrow F c id v junk s t = .resumed id v c.regs { s with
      mem := blit (fun a => if a < s.top then junk a else s.mem a) c.src c.data, top := c.sp, module := c.module } := by
  induction t using Nat.strongRecOn with
  | ind t ih =>
    rw [dynthrow]
    split
    · exact .inl rfl
    · split
      · split
        · exact .inl rfl
        · exact ih _ (by have := F.gr_pos; omega)
      · exact copyBack_inv F c id v _ junk s (by omega)

theorem dynthrow_room (F : Frames) (c : Cont) (id v : Nat) (junk : Nat → Nat) (s : St H) (t : Nat)
    (h1 : F.lo + F.th + F.gr + F.cp ≤ c.src) (h2 : F.lo + F.th + F.cp ≤ t) :
    dynthrow F c id v junk s t ≠ .overflow := by
  induction t using Nat.strongRecOn with
  | ind t ih =>
    rw [dynthrow]
    rw [if_neg (by omega)]
    split
    · rw [if_neg (by omega)]
      exact ih _ (by have := F.gr_pos; omega) (by omega)
    · unfold copyBack
      rw [if_neg (by omega), if_neg (by omega)]
      intro h; cases h

/-- The record `capture` makes. -/
abbrev mkCont (F : Frames) (s : St H) (b regs : Nat) : Cont :=
  { data := slice s.mem (s.top - F.ms) (b - (s.top - F.ms)), src := s.top - F.ms, module := s.module, regs := regs, sp := s.top }

theorem capture_eq {F : Frames} {regs b : Nat} {s : St H} (g : s.base = some b) : act F s (.capture regs) =
    if s.top < F.lo + F.ms then .overflow else if b < s.top - F.ms then .ub
    else .on { s with conts := s.conts ++ [mkCont F s b regs] } := by
  simp only [act, capture]
  split
  · rename_i h; rw [g] at h; cases h
  · rename_i b' h
    cases g.symm.trans h
    rfl

/-- What every history below `b` keeps. -/
structure Good (b : Nat) (s : St H) : Prop where
  base : s.base = some b
  top : s.top ≤ b
  conts : ∀ c ∈ s.conts, c.src + c.data.length ≤ b ∧ c.sp ≤ b

theorem act_good {F : Frames} {b : Nat} {s s' : St H} {a : Act H} (g : Good b s) (hb : StaysBelow b a)
    (h : act F s a = .on s' ∨ ∃ i v r, act F s a = .resumed i v r s') :
    Good b s' ∧ (∀ x, b ≤ x → s'.mem x = s.mem x) ∧ ∃ cs, s'.conts = s.conts ++ cs := by
  cases a with
  | store a w =>
    rcases h with h | ⟨_, _, _, h⟩ <;> simp only [act, Res.on.injEq, reduceCtorEq] at h
    subst h
    refine ⟨⟨g.base, g.top, g.conts⟩, ?_, [], by simp⟩
    intro x hx
    have : x ≠ a := by simp only [StaysBelow] at hb; omega
    simp [this]
  | move t =>
    rcases h with h | ⟨_, _, _, h⟩ <;> simp only [act, Res.on.injEq, reduceCtorEq] at h
    subst h
    exact ⟨⟨g.base, hb, g.conts⟩, fun _ _ => rfl, [], by simp⟩
  | heap f =>
    rcases h with h | ⟨_, _, _, h⟩ <;> simp only [act, Res.on.injEq, reduceCtorEq] at h
    subst h
    exact ⟨⟨g.base, g.top, g.conts⟩, fun _ _ => rfl, [], by simp⟩
  | setModule m =>
    rcases h with h | ⟨_, _, _, h⟩ <;> simp only [act, Res.on.injEq, reduceCtorEq] at h
    subst h
    exact ⟨⟨g.base, g.top, g.conts⟩, fun _ _ => rfl, [], by simp⟩
  | enter b' =>
    rcases h with h | ⟨_, _, _, h⟩ <;> simp only [act, Res.on.injEq, reduceCtorEq, enter, g.base] at h
    subst h
    exact ⟨g, fun _ _ => rfl, [], by simp⟩
  | capture regs =>
    rcases h with h | ⟨_, _, _, h⟩ <;> rw [capture_eq g.base] at h
    · split at h
      · cases h
      · split at h
        · cases h
        · cases h
          refine ⟨⟨g.base, g.top, ?_⟩, fun _ _ => rfl, _, rfl⟩
          intro c hc
          rcases List.mem_append.1 hc with hc | hc
          · exact g.conts c hc
          · rw [List.mem_singleton] at hc
            subst hc
            refine ⟨?_, g.top⟩
            simp only [slice_length]
            omega
    · split at h
      · cases h
      · split at h <;> cases h
  | throw id v junk =>
    simp only [act] at h
    cases hc : s.conts[id]? with
    | none =>
      simp only [hc] at h
      rcases h with h | ⟨_, _, _, h⟩ <;> simp only [Res.on.injEq, reduceCtorEq] at h
      subst h
      exact ⟨g, fun _ _ => rfl, [], by simp⟩
    | some c =>
      simp only [hc] at h
      rcases dynthrow_inv F c id v junk s s.top with hd | hd
      · simp only [hd, reduceCtorEq, false_or, exists_false] at h
      · simp only [hd, reduceCtorEq, false_or, Res.resumed.injEq] at h
        obtain ⟨_, _, _, _, _, _, h⟩ := h
        subst h
        have hm := g.conts c (List.mem_of_getElem? hc)
        refine ⟨⟨g.base, hm.2, g.conts⟩, ?_, [], by simp⟩
        intro x hx
        dsimp only
        rw [blit_out _ _ _ _ (by omega), if_neg (by have := g.top; omega)]

theorem runs_good {F : Frames} {b : Nat} {s s' : St H} {as : List (Act H)} (g : Good b s) (hb : ∀ a ∈ as, StaysBelow b a)
    (h : runs F s as = .on s') : Good b s' ∧ (∀ x, b ≤ x → s'.mem x = s.mem x) ∧ ∃ cs, s'.conts = s.conts ++ cs := by
  induction as generalizing s with
  | nil => simp only [runs, Res.on.injEq] at h; subst h; exact ⟨g, fun _ _ => rfl, [], by simp⟩
  | cons a as ih =>
    rw [runs] at h
    have hba := hb a (by simp)
    have hbs : ∀ a ∈ as, StaysBelow b a := fun x hx => hb x (by simp [hx])
    cases ha : act F s a with
    | on s1 =>
      simp only [ha] at h
      obtain ⟨g1, m1, c1, e1⟩ := act_good g hba (.inl ha)
      obtain ⟨g2, m2, c2, e2⟩ := ih g1 hbs h
      exact ⟨g2, fun x hx => by rw [m2 x hx, m1 x hx], c1 ++ c2, by rw [e2, e1, List.append_assoc]⟩
    | resumed i v r s1 =>
      simp only [ha] at h
      obtain ⟨g1, m1, c1, e1⟩ := act_good g hba (.inr ⟨i, v, r, ha⟩)
      obtain ⟨g2, m2, c2, e2⟩ := ih g1 hbs h
      exact ⟨g2, fun x hx => by rw [m2 x hx, m1 x hx], c1 ++ c2, by rw [e2, e1, List.append_assoc]⟩
    | overflow => simp [ha] at h
    | ub => simp [ha] at h

theorem act_base {F : Frames} {b : Nat} {s s' : St H} {a : Act H} (g : s.base = some b)
    (h : act F s a = .on s' ∨ ∃ i v r, act F s a = .resumed i v r s') : s'.base = some b ∧ ∃ cs, s'.conts = s.conts ++ cs := by
  cases a with
  | capture regs =>
    rcases h with h | ⟨_, _, _, h⟩ <;> rw [capture_eq g] at h
    · split at h
      · cases h
      · split at h
        · cases h
        · cases h; exact ⟨g, _, rfl⟩
    · split at h
      · cases h
      · split at h <;> cases h
  | throw id v junk =>
    simp only [act] at h
    cases hc : s.conts[id]? with
    | none =>
      simp only [hc] at h
      rcases h with h | ⟨_, _, _, h⟩ <;> simp only [Res.on.injEq, reduceCtorEq] at h
      subst h; exact ⟨g, [], by simp⟩
    | some c =>
      simp only [hc] at h
      rcases dynthrow_inv F c id v junk s s.top with hd | hd
      · simp only [hd, reduceCtorEq, false_or, exists_false] at h
      · simp only [hd, reduceCtorEq, false_or, Res.resumed.injEq] at h
        obtain ⟨_, _, _, _, _, _, h⟩ := h
        subst h; exact ⟨g, [], by simp⟩
  | enter b' =>
    rcases h with h | ⟨_, _, _, h⟩ <;> simp only [act, Res.on.injEq, reduceCtorEq, enter, g] at h
    subst h; exact ⟨g, [], by simp⟩
  | store | move | heap | setModule =>
    rcases h with h | ⟨_, _, _, h⟩ <;> simp only [act, Res.on.injEq, reduceCtorEq] at h
    subst h; exact ⟨g, [], by simp⟩

theorem runs_base {F : Frames} {b : Nat} {s s' : St H} {as : List (Act H)} (g : s.base = some b) (h : runs F s as = .on s') :
    s'.base = some b ∧ ∃ cs, s'.conts = s.conts ++ cs := by
  induction as generalizing s with
  | nil => simp only [runs, Res.on.injEq] at h; subst h; exact ⟨g, [], by simp⟩
  | cons a as ih =>
    rw [runs] at h
    cases ha : act F s a with
    | on s1 =>
      simp only [ha] at h
      obtain ⟨g1, c1, e1⟩ := act_base g (.inl ha)
      obtain ⟨g2, c2, e2⟩ := ih g1 h
      exact ⟨g2, c1 ++ c2, by rw [e2, e1, List.append_assoc]⟩
    | resumed i v r s1 =>
      simp only [ha] at h
      obtain ⟨g1, c1, e1⟩ := act_base g (.inr ⟨i, v, r, ha⟩)
      obtain ⟨g2, c2, e2⟩ := ih g1 h
      exact ⟨g2, c1 ++ c2, by rw [e2, e1, List.append_assoc]⟩
    | overflow => simp [ha] at h
    | ub => simp [ha] at h

theorem capture_inv {F : Frames} {regs b : Nat} {s s1 : St H} (g : s.base = some b) (h : act F s (.capture regs) = .on s1) :
    F.lo + F.ms ≤ s.top ∧ s.top - F.ms ≤ b ∧
    s1 = { s with conts := s.conts ++ [mkCont F s b regs] } := by
  rw [capture_eq g] at h
  split at h
  · cases h
  · split at h
    · cases h
    · cases h; exact ⟨by omega, by omega, rfl⟩

/-! ## Example states -/

/-- Frame sizes for the examples. -/
def exF : Frames := ⟨2, 1, 3, 2, 4, by omega⟩

/-- The stack base is at 100, the stack is three words deep. -/
def exS : St Nat := { mem := fun a => a * 7, top := 97, base := some 100, module := 1, heap := 0, conts := [] }

/-! ## C127 -/

/-- C127 (part): in every history that stays below `cont_base`, calling a continuation resumes the program where it was captured (with the registers of that moment), with
the value passed, with every live word of the stack as it was at the capture, the stack pointer and the current module as they were then, and the heap as it is now.
It does not matter what ran in between, in particular how often this continuation or others were called.  The stack must have room for the frames of the copying functions.
Missing: programs that return from the function that fixed `cont_base` (`c127_host_counterexample`, `c127_negative_fails`). -/
theorem c127_resume_partial {F : Frames} {b regs v : Nat} {s0 s s1 s2 : St H} {before after : List (Act H)} {junk : Nat → Nat}
    (h0 : s0.base = some b) (t0 : s0.top ≤ b) (c0 : s0.conts = [])
    (hb : ∀ a ∈ before, StaysBelow b a) (hbefore : runs F s0 before = .on s)
    (hcap : act F s (.capture regs) = .on s1)
    (ha : ∀ a ∈ after, StaysBelow b a) (hafter : runs F s1 after = .on s2)
    (room : F.lo + F.ms + F.th + F.gr + F.cp ≤ s.top) (room2 : F.lo + F.th + F.cp ≤ s2.top) :
    ∃ s3, act F s2 (.throw s.conts.length v junk) = .resumed s.conts.length v regs s3 ∧
      (∀ a, s.top ≤ a → s3.mem a = s.mem a) ∧ s3.top = s.top ∧ s3.module = s.module ∧ s3.heap = s2.heap := by
  obtain ⟨g, m0, _⟩ := runs_good (F := F) ⟨h0, t0, by simp [c0]⟩ hb hbefore
  obtain ⟨r1, r2, e⟩ := capture_inv g.base hcap
  obtain ⟨g1, m1, _⟩ := act_good (F := F) (a := .capture regs) g trivial (.inl hcap)
  obtain ⟨g2, m2, cs, e2⟩ := runs_good g1 ha hafter
  have hc : s2.conts[s.conts.length]? = some (mkCont F s b regs) := by
    rw [e2, e]; simp
  simp only [act, hc]
  rcases dynthrow_inv F (mkCont F s b regs) s.conts.length v junk s2 s2.top with hd | hd
  · exact absurd hd (dynthrow_room F (mkCont F s b regs) _ _ _ _ _ (by show F.lo + F.th + F.gr + F.cp ≤ s.top - F.ms; omega) room2)
  · refine ⟨_, hd, ?_, rfl, rfl, rfl⟩
    intro a hle
    dsimp only
    by_cases hlt : a < b
    · exact blit_slice _ _ _ _ _ (by omega) (by omega)
    · rw [blit_out _ _ _ _ (by rw [slice_length]; omega), if_neg (by have := g2.top; omega), m2 a (by omega), m1 a (by omega)]

/-- The hypotheses are met: capture, return two frames, overwrite them, capture again, call the first continuation, overwrite, call it again. -/
example : ∃ s1 s2, act exF exS (.capture 5) = .on s1 ∧
    runs exF s1 [.move 99, .store 98 0, .heap (· + 1), .capture 6, .throw 0 8 (fun _ => 3), .store 97 1, .setModule 2, .move 100] = .on s2 ∧
    (∀ a ∈ [Act.move 99, .store 98 0, .heap (· + 1), .capture 6, .throw 0 8 (fun _ => 3), .store 97 1, .setModule 2, .move 100], StaysBelow (H := Nat) 100 a) ∧
    s2.mem 97 ≠ exS.mem 97 ∧ s2.module = 2 ∧
    exF.lo + exF.ms + exF.th + exF.gr + exF.cp ≤ exS.top ∧ exF.lo + exF.th + exF.cp ≤ s2.top := by
  refine ⟨_, _, rfl, (by simp [runs, act, capture, exS, exF, dynthrow, copyBack, slice]; rfl), ?_, ?_, ?_, ?_, ?_⟩
  · intro a ha
    simp only [List.mem_cons, List.not_mem_nil, or_false] at ha
    rcases ha with rfl | rfl | rfl | rfl | rfl | rfl | rfl | rfl <;> simp [StaysBelow]
  all_goals simp [exS, exF]

/-- C127: while it copies, the process never overwrites the frames of the copying functions, for whatever distance between the stack at the capture and the stack now: calling a
continuation is never undefined behaviour, the growth of the stack always ends, and if the stack has room the program is resumed. -/
theorem c127_safe (F : Frames) (s : St H) (id v : Nat) (junk : Nat → Nat) : act F s (.throw id v junk) ≠ .ub := by
  simp only [act]
  split
  · simp
  · rename_i c hc
    rcases dynthrow_inv F c id v junk s s.top with hd | hd <;> rw [hd] <;> simp

/-- A call from a frame high above the captured stack (the stack is grown thirty times first). -/
example : ∃ s3, act exF { exS with top := 100, conts := [⟨[1, 2], 20, 1, 9, 21⟩] } (.throw 0 7 (fun _ => 0)) = .resumed 0 7 9 s3 := by
  exact ⟨_, by simp [act, dynthrow, copyBack, exF, exS]; rfl⟩

/-- C127, for every history: when a continuation is called, the words between the captured stack top and `cont_base` get the values they had at the capture, and the words that are alive
now at or above `cont_base` keep their values of now. -/
theorem c127_words {F : Frames} {b regs v i : Nat} {s s1 s2 s3 : St H} {after : List (Act H)} {junk : Nat → Nat} {r : Nat}
    (h0 : s.base = some b) (hcap : act F s (.capture regs) = .on s1) (hafter : runs F s1 after = .on s2)
    (ht : act F s2 (.throw s.conts.length v junk) = .resumed i v r s3) :
    i = s.conts.length ∧ r = regs ∧ s3.top = s.top ∧ s3.heap = s2.heap ∧
    (∀ a, s.top ≤ a → a < b → s3.mem a = s.mem a) ∧ (∀ a, b ≤ a → s2.top ≤ a → s3.mem a = s2.mem a) := by
  obtain ⟨r1, r2, e⟩ := capture_inv h0 hcap
  obtain ⟨_, cs, e2⟩ := runs_base (F := F) (s := s1) (b := b) (by rw [e]; exact h0) hafter
  have hc : s2.conts[s.conts.length]? = some (mkCont F s b regs) := by
    rw [e2, e]; simp
  simp only [act, hc] at ht
  rcases dynthrow_inv F _ s.conts.length v junk s2 s2.top with hd | hd
  · rw [hd] at ht; cases ht
  · rw [hd] at ht
    cases ht
    refine ⟨rfl, rfl, rfl, rfl, ?_, ?_⟩
    · intro a h1 h2
      exact blit_slice _ s.mem (s.top - F.ms) (b - (s.top - F.ms)) a (by omega) (by omega)
    · intro a h1 h2
      dsimp only
      rw [blit_out _ _ _ _ (by rw [slice_length]; omega), if_neg (by omega)]

/-- C127: `cont_base` is fixed by the first evaluation of the process, the one made by the initialisation, and no history changes it. -/
theorem c127_base (F : Frames) (s s' : St H) (b : Nat) (as : List (Act H)) (h0 : s.base = none) (h : runs F s (.enter b :: as) = .on s') :
    s'.base = some b := by
  rw [runs] at h
  simp only [act, enter, h0] at h
  exact (runs_base (F := F) rfl h).1

example : ∃ s', runs exF { exS with base := none } [.enter 90, .move 85, .enter 80, .capture 1] = .on s' ∧ s'.base = some 90 :=
  ⟨_, rfl, rfl⟩

/-- C127 is FALSE in general: whenever the program captures a continuation while its stack is shallower than the one of the initialisation was (the host called `pscm_init` from a deeper
function than `pscm_eval`), the behaviour is undefined: the length of the copy is negative. -/
theorem c127_negative_fails (F : Frames) (s s' : St H) (b regs : Nat) (as : List (Act H)) (h0 : s.base = none)
    (h : runs F s (.enter b :: as) = .on s') (shallow : b < s'.top - F.ms) (room : F.lo + F.ms ≤ s'.top) : act F s' (.capture regs) = .ub := by
  have := c127_base F s s' b as h0 h
  simp only [act, capture, this]
  rw [if_neg (by omega), if_pos shallow]

example : ∃ s', runs exF { exS with base := none } [.enter 90, .move 97] = .on s' ∧ 90 < s'.top - exF.ms ∧ exF.lo + exF.ms ≤ s'.top :=
  ⟨_, rfl, by decide, by decide⟩

/-- Without any evaluation before, capturing is undefined behaviour too. -/
theorem c127_unset_fails (F : Frames) (s : St H) (regs : Nat) (h : s.base = none) : act F s (.capture regs) = .ub := by
  simp only [act, capture, h]

example : ({ exS with base := none } : St Nat).base = none := rfl

/-- C127 is FALSE when the frame at `cont_base` was left in between: the host captures a continuation with live words above `cont_base`, returns, runs other code there, and calls the
continuation: the program is resumed with a word of its stack that is not the one it had. -/
theorem c127_host_counterexample : ∃ (F : Frames) (s s1 s2 s3 : St Nat) (a : Nat),
    act F s (.capture 1) = .on s1 ∧ runs F s1 [.move 110, .store 105 1, .move 99] = .on s2 ∧
    act F s2 (.throw 0 7 (fun _ => 0)) = .resumed 0 7 1 s3 ∧ s.top ≤ a ∧ s3.mem a ≠ s.mem a := by
  refine ⟨exF, exS, _, _, _, 105, rfl, rfl, (by simp [act, dynthrow, copyBack, exF, exS, slice]; rfl), by decide, ?_⟩
  simp [exS, blit]

end Pscm.Cm
