import Verif.ModSearch
/-!
# Vocabulary and lemmas for C122 and C123
-/
namespace Pscm.Msr

/-! ## Vocabulary -/

/-- Module `m` itself binds `x` to `v`. -/
def Binds (ms : List Mod) (m : Nat) (x : Name) (v : Val) : Prop := ∃ md, ms[m]? = some md ∧ md.obarray.lookup x = some v

/-- Module `m` itself does not bind `x`. -/
def Lacks (ms : List Mod) (m : Nat) (x : Name) : Prop := ∀ v, ¬ Binds ms m x v

/-- `x` is bound for module `m`: by itself, else by the first of its imports that binds it, else by the root module. -/
inductive Visible (ms : List Mod) (root m : Nat) (x : Name) (v : Val) : Prop
  | own : Binds ms m x v → Visible ms root m x v
  | used {md before u after} : Lacks ms m x → ms[m]? = some md → md.uses = before ++ u :: after → (∀ w ∈ before, Lacks ms w x) → Binds ms u x v →
      Visible ms root m x v
  | root {md} : Lacks ms m x → ms[m]? = some md → (∀ w ∈ md.uses, Lacks ms w x) → Binds ms root x v → Visible ms root m x v

/-- The program ends with `r` in state `s'`. -/
def Runs (W : World) (p : Prog) (s : St) (r : Res Val) (s' : St) : Prop := ∃ n, run W n p s = (r, s') ∧ r ≠ .oof

/-- The lookup of `x` in module `m` ends with `r` in state `s'`. -/
def Looks (W : World) (m : Nat) (x : Name) (s : St) (r : Res (Option Val)) (s' : St) : Prop := ∃ n, search W n m x s = (r, s') ∧ r ≠ .oof

/-- A session: programs run one after the other, errors being caught. -/
inductive Session (W : World) : List Prog → St → List (Res Val) → St → Prop
  | nil {s} : Session W [] s [] s
  | cons {p ps s r s1 rs s2} : Runs W p s r s1 → Session W ps s1 rs s2 → Session W (p :: ps) s (r :: rs) s2

/-- No module has autoload specs. -/
def NoSpecs (ms : List Mod) : Prop := ∀ md ∈ ms, md.specs = []

/-- The program adds no autoload specs. -/
inductive Plain : Prog → Prop
  | ret {v} : Plain (.ret v)
  | raise {e} : Plain (.raise e)
  | look {m x k} : (∀ r, Plain (k r)) → Plain (.look m x k)
  | edit {f k} : (∀ ms, NoSpecs ms → NoSpecs (f ms)) → (∀ ms, Plain (k ms)) → Plain (.edit f k)

/-! ## Steps 1-3 -/

theorem obLookup_iff {ms : List Mod} {m : Nat} {x : Name} {v : Val} : obLookup ms m x = some v ↔ Binds ms m x v := by
  unfold obLookup Binds
  cases ms[m]? with
  | none => simp
  | some md => simp

theorem obLookup_none {ms : List Mod} {m : Nat} {x : Name} : obLookup ms m x = none ↔ Lacks ms m x := by
  constructor
  · intro h v hv
    rw [← obLookup_iff, h] at hv
    cases hv
  · intro h
    cases ho : obLookup ms m x with
    | none => rfl
    | some v => exact absurd (obLookup_iff.1 ho) (h v)

theorem firstOf_some {ms : List Mod} {x : Name} {v : Val} : ∀ {us : List Nat}, firstOf ms x us = some v ↔
    ∃ before u after, us = before ++ u :: after ∧ (∀ w ∈ before, Lacks ms w x) ∧ Binds ms u x v
  | [] => by simp [firstOf]
  | a :: us => by
    unfold firstOf
    cases h : obLookup ms a x with
    | some w =>
      simp only
      constructor
      · intro e
        cases e
        exact ⟨[], a, us, rfl, by simp, obLookup_iff.1 h⟩
      · rintro ⟨before, u, after, he, hl, hb⟩
        cases before with
        | nil =>
          simp only [List.nil_append, List.cons.injEq] at he
          obtain ⟨rfl, rfl⟩ := he
          rw [← obLookup_iff, h] at hb
          exact hb
        | cons b bs =>
          simp only [List.cons_append, List.cons.injEq] at he
          have := hl b (by simp)
          rw [← obLookup_none, ← he.1, h] at this
          cases this
    | none =>
      simp only
      rw [firstOf_some]
      constructor
      · rintro ⟨before, u, after, rfl, hl, hb⟩
        refine ⟨a :: before, u, after, rfl, ?_, hb⟩
        intro w hw
        rcases List.mem_cons.1 hw with rfl | hw
        · exact obLookup_none.1 h
        · exact hl w hw
      · rintro ⟨before, u, after, he, hl, hb⟩
        cases before with
        | nil =>
          simp only [List.nil_append, List.cons.injEq] at he
          rw [← he.1] at hb
          exact absurd hb (obLookup_none.1 h v)
        | cons b bs =>
          simp only [List.cons_append, List.cons.injEq] at he
          exact ⟨bs, u, after, he.2, fun w hw => hl w (by simp [hw]), hb⟩

theorem firstOf_none {ms : List Mod} {x : Name} : ∀ {us : List Nat}, firstOf ms x us = none ↔ ∀ w ∈ us, Lacks ms w x
  | [] => by simp [firstOf]
  | a :: us => by
    unfold firstOf
    cases h : obLookup ms a x with
    | some w =>
      simp only [reduceCtorEq, List.mem_cons, false_iff]
      intro hl
      have := hl a (.inl rfl)
      rw [← obLookup_none, h] at this
      cases this
    | none =>
      simp only [firstOf_none, List.mem_cons]
      constructor
      · rintro hl w (rfl | hw)
        · exact obLookup_none.1 h
        · exact hl w hw
      · exact fun hl w hw => hl w (.inr hw)

theorem bound_iff {ms : List Mod} {root m : Nat} {x : Name} {v : Val} (hm : m < ms.length) : bound ms root m x = some v ↔ Visible ms root m x v := by
  have hget := List.getElem?_eq_getElem hm
  unfold bound
  cases h : obLookup ms m x with
  | some w =>
    simp only
    constructor
    · intro e; cases e; exact .own (obLookup_iff.1 h)
    · intro hv
      cases hv with
      | own hb => rw [← obLookup_iff, h] at hb; exact hb
      | used hl _ _ _ _ => rw [← obLookup_none, h] at hl; cases hl
      | root hl _ _ _ => rw [← obLookup_none, h] at hl; cases hl
  | none =>
    have hl := obLookup_none.1 h
    simp only [hget]
    cases hf : firstOf ms x ms[m].uses with
    | some w =>
      simp only
      constructor
      · intro e
        cases e
        obtain ⟨before, u, after, h1, h2, h3⟩ := firstOf_some.1 hf
        exact .used hl hget h1 h2 h3
      · intro hv
        cases hv with
        | own hb => exact absurd hb (hl v)
        | used _ hg h1 h2 h3 =>
          rw [hget] at hg
          cases hg
          have := firstOf_some.2 ⟨_, _, _, h1, h2, h3⟩
          rw [hf] at this
          exact this
        | root _ hg h1 _ =>
          rw [hget] at hg
          cases hg
          rw [firstOf_none.2 h1] at hf
          cases hf
    | none =>
      simp only
      have hn := firstOf_none.1 hf
      constructor
      · intro e
        split at e
        · exact .root hl hget hn (obLookup_iff.1 e)
        · cases e
      · intro hv
        cases hv with
        | own hb => exact absurd hb (hl v)
        | used _ hg h1 h2 h3 =>
          rw [hget] at hg
          cases hg
          have := firstOf_some.2 ⟨_, _, _, h1, h2, h3⟩
          rw [hf] at this
          cases this
        | root _ _ _ hb =>
          rw [if_pos (by rintro rfl; exact hl v hb)]
          exact obLookup_iff.2 hb

theorem bound_none {ms : List Mod} {root m : Nat} {x : Name} (hm : m < ms.length) : bound ms root m x = none ↔ ∀ v, ¬ Visible ms root m x v := by
  constructor
  · intro h v hv
    rw [← bound_iff hm, h] at hv
    cases hv
  · intro h
    cases hb : bound ms root m x with
    | none => rfl
    | some v => exact absurd ((bound_iff hm).1 hb) (h v)

/-! ## Fuel -/

theorem mono (W : World) (n : Nat) :
    (∀ p s r s', run W n p s = (r, s') → r ≠ .oof → run W (n + 1) p s = (r, s')) ∧
    (∀ m x s r s', search W n m x s = (r, s') → r ≠ .oof → search W (n + 1) m x s = (r, s')) ∧
    (∀ m x s r s', autoload W n m x s = (r, s') → r ≠ .oof → autoload W (n + 1) m x s = (r, s')) := by
  induction n with
  | zero =>
    refine ⟨?_, ?_, ?_⟩
    · intro p s r s' h hr; rw [run] at h; cases h; exact absurd rfl hr
    · intro m x s r s' h hr; rw [search] at h; cases h; exact absurd rfl hr
    · intro m x s r s' h hr; rw [autoload] at h; cases h; exact absurd rfl hr
  | succ n ih =>
    obtain ⟨ih1, ih2, ih3⟩ := ih
    refine ⟨?_, ?_, ?_⟩
    · intro p s r s' h hr
      cases p with
      | ret v => rw [run] at h ⊢; exact h
      | raise e => rw [run] at h ⊢; exact h
      | edit f k => rw [run] at h ⊢; exact ih1 _ _ _ _ h hr
      | look m x k =>
        rw [run] at h ⊢
        cases hs : search W n m x s with
        | mk r1 s1 =>
          rw [hs] at h
          cases r1 with
          | oof => simp only at h; cases h; exact absurd rfl hr
          | ok a => rw [ih2 _ _ _ _ _ hs (by simp)]; exact ih1 _ _ _ _ h hr
          | _ => rw [ih2 _ _ _ _ _ hs (by simp)]; exact h
    · intro m x s r s' h hr
      rw [search] at h ⊢
      split at h
      · exact h
      · split at h
        · exact h
        · split at h
          · exact ih3 _ _ _ _ _ h hr
          · split at h
            · rename_i hg; rw [if_pos hg]; exact ih3 _ _ _ _ _ h hr
            · rename_i b _ hg
              rw [if_neg hg]
              cases hs : run W n (W.binder b m x) { s with guard := true } with
              | mk r1 s1 =>
                rw [hs] at h
                cases r1 with
                | oof => simp only at h; cases h; exact absurd rfl hr
                | ok v =>
                  rw [ih1 _ _ _ _ hs (by simp)]
                  cases v with
                  | fls => exact ih3 _ _ _ _ _ h hr
                  | _ => exact h
                | _ => rw [ih1 _ _ _ _ hs (by simp)]; exact h
    · intro m x s r s' h hr
      rw [autoload] at h ⊢
      split at h
      · exact h
      · split at h
        · exact h
        · rename_i name rest _
          cases hs : run W n (W.resolve name) { s with mods := setSpecs s.mods m rest } with
          | mk r1 s1 =>
            rw [hs] at h
            cases r1 with
            | oof => simp only at h; cases h; exact absurd rfl hr
            | ok v =>
              rw [ih1 _ _ _ _ hs (by simp)]
              cases v with
              | mod u => exact ih2 _ _ _ _ _ h hr
              | _ => exact h
            | _ => rw [ih1 _ _ _ _ hs (by simp)]; exact h

theorem run_le {W : World} {n k : Nat} {p : Prog} {s s' : St} {r : Res Val} (h : run W n p s = (r, s')) (hr : r ≠ .oof) (hk : n ≤ k) :
    run W k p s = (r, s') := by
  induction hk with
  | refl => exact h
  | step _ ih => exact (mono W _).1 _ _ _ _ ih hr

theorem search_le {W : World} {n k m : Nat} {x : Name} {s s' : St} {r : Res (Option Val)} (h : search W n m x s = (r, s')) (hr : r ≠ .oof) (hk : n ≤ k) :
    search W k m x s = (r, s') := by
  induction hk with
  | refl => exact h
  | step _ ih => exact (mono W _).2.1 _ _ _ _ _ ih hr

/-! ## The guard -/

/-- With the guard set, binders play no part and the guard stays set. -/
theorem guarded (W W' : World) (hW : W'.resolve = W.resolve) (n : Nat) :
    (∀ p s, s.guard = true → run W' n p s = run W n p s ∧ (run W n p s).2.guard = true) ∧
    (∀ m x s, s.guard = true → search W' n m x s = search W n m x s ∧ (search W n m x s).2.guard = true) ∧
    (∀ m x s, s.guard = true → autoload W' n m x s = autoload W n m x s ∧ (autoload W n m x s).2.guard = true) := by
  induction n with
  | zero =>
    refine ⟨?_, ?_, ?_⟩
    · intro p s h; rw [run, run]; exact ⟨rfl, h⟩
    · intro m x s h; rw [search, search]; exact ⟨rfl, h⟩
    · intro m x s h; rw [autoload, autoload]; exact ⟨rfl, h⟩
  | succ n ih =>
    obtain ⟨ih1, ih2, ih3⟩ := ih
    refine ⟨?_, ?_, ?_⟩
    · intro p s hg
      cases p with
      | ret v => rw [run, run]; exact ⟨rfl, hg⟩
      | raise e => rw [run, run]; exact ⟨rfl, hg⟩
      | edit f k => simp only [run]; exact ih1 _ _ hg
      | look m x k =>
        obtain ⟨e, g⟩ := ih2 m x s hg
        rw [run, run, e]
        cases hs : search W n m x s with
        | mk r1 s1 =>
          rw [hs] at g
          cases r1 with
          | ok a => exact ih1 _ _ g
          | _ => exact ⟨rfl, g⟩
    · intro m x s hg
      rw [search, search]
      split
      · exact ⟨rfl, hg⟩
      · split
        · exact ⟨rfl, hg⟩
        · split
          · exact ih3 _ _ _ hg
          · rw [if_pos hg, if_pos hg]; exact ih3 _ _ _ hg
    · intro m x s hg
      rw [autoload, autoload]
      split
      · exact ⟨rfl, hg⟩
      · split
        · exact ⟨rfl, hg⟩
        · rename_i name rest _
          obtain ⟨e, g⟩ := ih1 (W.resolve name) { s with mods := setSpecs s.mods m rest } hg
          rw [hW, e]
          cases hs : run W n (W.resolve name) { s with mods := setSpecs s.mods m rest } with
          | mk r1 s1 =>
            rw [hs] at g
            cases r1 with
            | ok v => cases v with
              | mod u => exact ih2 _ _ _ g
              | _ => exact ⟨rfl, g⟩
            | _ => exact ⟨rfl, g⟩

/-- A run without error leaves the guard as it was. -/
theorem guard_ok (W : World) (n : Nat) :
    (∀ p s v s', run W n p s = (.ok v, s') → s'.guard = s.guard) ∧
    (∀ m x s v s', search W n m x s = (.ok v, s') → s'.guard = s.guard) ∧
    (∀ m x s v s', autoload W n m x s = (.ok v, s') → s'.guard = s.guard) := by
  induction n with
  | zero =>
    refine ⟨?_, ?_, ?_⟩
    · intro p s v s' h; rw [run] at h; cases h
    · intro m x s v s' h; rw [search] at h; cases h
    · intro m x s v s' h; rw [autoload] at h; cases h
  | succ n ih =>
    obtain ⟨ih1, ih2, ih3⟩ := ih
    refine ⟨?_, ?_, ?_⟩
    · intro p s v s' h
      cases p with
      | ret w => rw [run] at h; cases h; rfl
      | raise e => rw [run] at h; cases h
      | edit f k => rw [run] at h; exact (ih1 _ _ _ _ h : s'.guard = ({ s with mods := f s.mods } : St).guard)
      | look m x k =>
        rw [run] at h
        cases hs : search W n m x s with
        | mk r1 s1 =>
          rw [hs] at h
          cases r1 with
          | ok a => exact (ih1 _ _ _ _ h).trans (ih2 _ _ _ _ _ hs)
          | _ => cases h
    · intro m x s v s' h
      rw [search] at h
      split at h
      · cases h; rfl
      · split at h
        · cases h
        · split at h
          · exact ih3 _ _ _ _ _ h
          · split at h
            · exact ih3 _ _ _ _ _ h
            · rename_i b _ hg
              have hg' : s.guard = false := by simpa using hg
              cases hs : run W n (W.binder b m x) { s with guard := true } with
              | mk r1 s1 =>
                rw [hs] at h
                cases r1 with
                | ok w =>
                  cases w with
                  | fls => exact (ih3 _ _ _ _ _ h).trans hg'.symm
                  | unboundVar => cases h
                  | _ => cases h; exact hg'.symm
                | _ => cases h
    · intro m x s v s' h
      rw [autoload] at h
      split at h
      · cases h
      · split at h
        · cases h; rfl
        · rename_i name rest _
          cases hs : run W n (W.resolve name) { s with mods := setSpecs s.mods m rest } with
          | mk r1 s1 =>
            rw [hs] at h
            cases r1 with
            | ok w =>
              have g := ih1 _ _ _ _ hs
              cases w with
              | mod u => exact (ih2 _ _ _ _ _ h).trans g
              | _ => cases h; exact g
            | _ => cases h

/-! ## Termination without autoloads -/

theorem takeSpec_nil (x : Name) : takeSpec x [] = none := rfl

theorem autoload_plain {W : World} {m : Nat} {x : Name} {s : St} (h : NoSpecs s.mods) : (autoload W 1 m x s).1 ≠ .oof ∧ (autoload W 1 m x s).2 = s := by
  rw [autoload]
  split
  · exact ⟨by simp, rfl⟩
  · rename_i md hmd
    rw [h md (List.mem_of_getElem? hmd), takeSpec_nil]
    exact ⟨by simp, rfl⟩

theorem autoload_le {W : World} {n k m : Nat} {x : Name} {s s' : St} {r : Res (Option Val)} (h : autoload W n m x s = (r, s')) (hr : r ≠ .oof) (hk : n ≤ k) :
    autoload W k m x s = (r, s') := by
  induction hk with
  | refl => exact h
  | step _ ih => exact (mono W _).2.2 _ _ _ _ _ ih hr

theorem plain_guarded (W : World) (p : Prog) (hp : Plain p) : ∀ s : St, s.guard = true → NoSpecs s.mods →
    ∃ n, (run W n p s).1 ≠ .oof ∧ NoSpecs (run W n p s).2.mods := by
  induction hp with
  | ret => intro s _ hn; exact ⟨1, by simp [run], by simpa [run] using hn⟩
  | raise => intro s _ hn; exact ⟨1, by simp [run], by simpa [run] using hn⟩
  | edit hf _ ih =>
    intro s hg hn
    rename_i f k _
    obtain ⟨n, h⟩ := ih s.mods { s with mods := f s.mods } hg (hf _ hn)
    exact ⟨n + 1, by simpa [run] using h⟩
  | look _ ih =>
    intro s hg hn
    rename_i m x k _
    have hs : ∃ r, search W 2 m x s = (r, s) ∧ r ≠ .oof := by
      obtain ⟨a1, a2⟩ := autoload_plain (W := W) (m := m) (x := x) hn
      have ha : autoload W 1 m x s = ((autoload W 1 m x s).1, s) := Prod.ext rfl a2
      rw [search]
      split
      · exact ⟨_, rfl, by simp⟩
      · split
        · exact ⟨_, rfl, by simp⟩
        · split
          · exact ⟨_, ha, a1⟩
          · rw [if_pos hg]; exact ⟨_, ha, a1⟩
    obtain ⟨r, hs, hr⟩ := hs
    cases r with
    | oof => exact absurd rfl hr
    | ok a =>
      obtain ⟨n, h1, h2⟩ := ih a s hg hn
      have e : run W n (k a) s = ((run W n (k a) s).1, (run W n (k a) s).2) := rfl
      refine ⟨n + 2 + 1, ?_⟩
      rw [run, search_le hs (by simp) (by omega)]
      simp only
      rw [run_le e h1 (by omega)]
      exact ⟨h1, h2⟩
    | _ => refine ⟨3, ?_⟩; rw [run, hs]; exact ⟨by simp, hn⟩

theorem plain_search (W : World) (hW : ∀ b m x, Plain (W.binder b m x)) (m : Nat) (x : Name) (s : St) (hn : NoSpecs s.mods) :
    ∃ n, (search W n m x s).1 ≠ .oof ∧ NoSpecs (search W n m x s).2.mods := by
  obtain ⟨a1, a2⟩ := autoload_plain (W := W) (m := m) (x := x) hn
  have key : ∃ n, 2 ≤ n ∧ (search W n m x s).1 ≠ .oof ∧ NoSpecs (search W n m x s).2.mods := by
    cases hb : bound s.mods s.root m x with
    | some v => exact ⟨2, by omega, by simp [search, hb], by simpa [search, hb] using hn⟩
    | none =>
      cases hm : s.mods[m]? with
      | none => exact ⟨2, by omega, by simp [search, hb, hm], by simpa [search, hb, hm] using hn⟩
      | some md =>
        cases hd : md.binder with
        | none => refine ⟨2, by omega, ?_⟩; rw [search, hb]; simp only [hm, hd]; exact ⟨a1, by rw [a2]; exact hn⟩
        | some b =>
          cases hg : s.guard with
          | true => refine ⟨2, by omega, ?_⟩; rw [search, hb]; simp only [hm, hd, hg, if_true]; exact ⟨a1, by rw [a2]; exact hn⟩
          | false =>
            obtain ⟨n, h1, h2⟩ := plain_guarded W _ (hW b m x) { s with guard := true } rfl hn
            refine ⟨n + 2 + 1, by omega, ?_⟩
            cases hr : run W n (W.binder b m x) { s with guard := true } with
            | mk r s1 =>
              rw [hr] at h1 h2
              have hr' := run_le hr h1 (show n ≤ n + 2 by omega)
              rw [search, hb]
              simp only [hm, hd, hg, Bool.false_eq_true, if_false, hr']
              cases r with
              | oof => exact absurd rfl h1
              | ok v =>
                cases v with
                | fls =>
                  obtain ⟨b1, b2⟩ := autoload_plain (W := W) (m := m) (x := x) (s := { s1 with guard := false }) h2
                  have hb' : autoload W 1 m x { s1 with guard := false } = ((autoload W 1 m x { s1 with guard := false }).1, { s1 with guard := false }) := Prod.ext rfl b2
                  simp only
                  rw [autoload_le hb' b1 (by omega)]
                  exact ⟨b1, h2⟩
                | _ => exact ⟨by simp, h2⟩
              | _ => exact ⟨by simp, h2⟩
  obtain ⟨n, _, h⟩ := key
  exact ⟨n, h⟩

theorem plain_run (W : World) (hW : ∀ b m x, Plain (W.binder b m x)) (p : Prog) (hp : Plain p) : ∀ s : St, NoSpecs s.mods → ∃ n, (run W n p s).1 ≠ .oof := by
  induction hp with
  | ret => intro s _; exact ⟨1, by simp [run]⟩
  | raise => intro s _; exact ⟨1, by simp [run]⟩
  | edit hf _ ih =>
    intro s hn
    rename_i f k _
    obtain ⟨n, h⟩ := ih s.mods { s with mods := f s.mods } (hf _ hn)
    exact ⟨n + 1, by simpa [run] using h⟩
  | look _ ih =>
    intro s hn
    rename_i m x k _
    obtain ⟨n, h1, h2⟩ := plain_search W hW m x s hn
    cases hs : search W n m x s with
    | mk r s1 =>
      rw [hs] at h1 h2
      cases r with
      | oof => exact absurd rfl h1
      | ok a =>
        obtain ⟨n', h3⟩ := ih a s1 h2
        have e : run W n' (k a) s1 = ((run W n' (k a) s1).1, (run W n' (k a) s1).2) := rfl
        refine ⟨n + n' + 1, ?_⟩
        rw [run, search_le hs (by simp) (by omega)]
        simp only
        rw [run_le e h3 (by omega)]
        exact h3
      | _ => exact ⟨n + 1, by rw [run, hs]; simp⟩

/-! ## Specs -/

theorem takeSpec_some {x : Name} : ∀ {specs : List (ModName × List Name)} {n rest}, takeSpec x specs = some (n, rest) ↔
    ∃ before syms after, specs = before ++ (n, syms) :: after ∧ (∀ sp ∈ before, x ∉ sp.2) ∧ x ∈ syms ∧ rest = before ++ after
  | [], n, rest => by simp [takeSpec]
  | (n0, syms0) :: specs, n, rest => by
    unfold takeSpec
    by_cases hc : syms0.contains x
    · rw [if_pos hc]
      simp only [List.contains_iff_mem] at hc
      constructor
      · intro h
        simp only [Option.some.injEq, Prod.mk.injEq] at h
        obtain ⟨rfl, rfl⟩ := h
        exact ⟨[], syms0, specs, rfl, by simp, hc, rfl⟩
      · rintro ⟨before, syms, after, he, hl, hx, rfl⟩
        cases before with
        | nil =>
          simp only [List.nil_append, List.cons.injEq, Prod.mk.injEq] at he
          simp [he.1.1, he.2]
        | cons b bs =>
          simp only [List.cons_append, List.cons.injEq] at he
          have := hl b (by simp)
          rw [← he.1] at this
          exact absurd hc this
    · rw [if_neg hc]
      have hc' : x ∉ syms0 := by simpa using hc
      cases ht : takeSpec x specs with
      | none =>
        simp only [reduceCtorEq, false_iff]
        rintro ⟨before, syms, after, he, hl, hx, rfl⟩
        cases before with
        | nil =>
          simp only [List.nil_append, List.cons.injEq, Prod.mk.injEq] at he
          rw [← he.1.2] at hx
          exact hc' hx
        | cons b bs =>
          simp only [List.cons_append, List.cons.injEq] at he
          have := takeSpec_some.2 ⟨bs, syms, after, he.2, fun sp h => hl sp (by simp [h]), hx, rfl⟩
          rw [ht] at this
          cases this
      | some nr =>
        obtain ⟨n', r'⟩ := nr
        obtain ⟨before, syms, after, he, hl, hx, hr⟩ := takeSpec_some.1 ht
        simp only [Option.some.injEq, Prod.mk.injEq]
        constructor
        · rintro ⟨rfl, rfl⟩
          refine ⟨(n0, syms0) :: before, syms, after, by rw [he]; rfl, ?_, hx, by rw [hr]; rfl⟩
          intro sp hsp
          rcases List.mem_cons.1 hsp with rfl | hsp
          · exact hc'
          · exact hl sp hsp
        · rintro ⟨before', syms', after', he', hl', hx', rfl⟩
          cases before' with
          | nil =>
            simp only [List.nil_append, List.cons.injEq, Prod.mk.injEq] at he'
            rw [← he'.1.2] at hx'
            exact absurd hx' hc'
          | cons b bs =>
            simp only [List.cons_append, List.cons.injEq] at he'
            have := takeSpec_some.2 ⟨bs, syms', after', he'.2, fun sp h => hl' sp (by simp [h]), hx', rfl⟩
            rw [ht] at this
            simp only [Option.some.injEq, Prod.mk.injEq] at this
            exact ⟨this.1, by rw [this.2, ← he'.1]; rfl⟩

theorem takeSpec_none {x : Name} {specs : List (ModName × List Name)} : takeSpec x specs = none ↔ ∀ sp ∈ specs, x ∉ sp.2 := by
  induction specs with
  | nil => simp [takeSpec]
  | cons sp specs ih =>
    obtain ⟨n0, syms0⟩ := sp
    unfold takeSpec
    by_cases hc : syms0.contains x
    · rw [if_pos hc]
      simp only [List.contains_iff_mem] at hc
      simp [hc]
    · rw [if_neg hc]
      have hc' : x ∉ syms0 := by simpa using hc
      cases ht : takeSpec x specs with
      | none => rw [ht] at ih; simpa [hc'] using ih
      | some nr =>
        rw [ht] at ih
        simp only [reduceCtorEq, false_iff] at ih
        simpa [hc'] using ih

end Pscm.Msr
