import Verif.EvSpec
/-! # Lemmas connecting the evaluator to its specification vocabulary -/
namespace Pscm.Ev
variable {σ α β : Type}
open EM (stop getSt modSt)

theorem evals_iff {P : Prims σ} {env e s o s'} : Evals P env e s o s' ↔ run P (.eval env e) s = some (o, s') :=
  run_eq_some.symm

theorem evals_det {P : Prims σ} {env e s o s' o' s''} (h : Evals P env e s o s') (k : Evals P env e s o' s'') :
    o = o' ∧ s' = s'' := by
  rw [evals_iff] at h k
  rw [h] at k
  simpa using k

theorem evals_step {P : Prims σ} {env e s o s'} :
    Evals P env e s o s' ↔ step P (run P) (.eval env e) s = some (o, s') := by
  rw [evals_iff, run_eq]

/-! ## The monad -/

theorem bind_apply (x : EM σ α) (f : α → EM σ β) (s : St σ) :
    (x >>= f) s = match x s with
      | Option.none => Option.none
      | some (.ok a, s') => f a s'
      | some (.stop e, s') => some (.stop e, s') := rfl

theorem pure_apply (a : α) (s : St σ) : (pure a : EM σ α) s = some (.ok a, s) := rfl
theorem stop_apply (e : Stop) (s : St σ) : (stop e : EM σ α) s = some (.stop e, s) := rfl
theorem getSt_apply (s : St σ) : (getSt : EM σ (St σ)) s = some (.ok s, s) := rfl
theorem modSt_apply (f : St σ → St σ) (s : St σ) : (modSt f : EM σ Unit) s = some (.ok (), f s) := rfl
theorem getSt_bind (f : St σ → EM σ β) (s : St σ) : (getSt >>= f) s = f s s := rfl
theorem modSt_bind (g : St σ → St σ) (f : Unit → EM σ β) (s : St σ) : (modSt g >>= f) s = f () (g s) := rfl
theorem pure_bind' (a : α) (f : α → EM σ β) : (pure a >>= f : EM σ β) = f a := rfl

theorem bind_eq_some {x : EM σ α} {f : α → EM σ β} {s : St σ} {o : Out β} {s' : St σ} :
    (x >>= f) s = some (o, s') ↔
      (∃ a s1, x s = some (.ok a, s1) ∧ f a s1 = some (o, s')) ∨ ∃ e, x s = some (.stop e, s') ∧ o = .stop e := by
  rw [bind_apply]
  constructor
  · intro h
    cases hx : x s with
    | none => rw [hx] at h; cases h
    | some q =>
      obtain ⟨o1, s1⟩ := q
      rw [hx] at h
      cases o1 with
      | ok a => exact .inl ⟨a, s1, rfl, h⟩
      | stop e => simp only [Option.some.injEq, Prod.mk.injEq] at h; exact .inr ⟨e, by rw [h.2], h.1.symm⟩
  · rintro (⟨a, s1, hx, h⟩ | ⟨e, hx, rfl⟩) <;> rw [hx]
    exact h

/-! ## Macros, keywords -/

theorem lookup_eq_findEntry (x : Name) (es : List (Name × V)) : es.lookup x = findEntry x es := by
  induction es with
  | nil => rfl
  | cons p es ih =>
    obtain ⟨k, v⟩ := p
    simp only [List.lookup, findEntry]
    by_cases h : k = x
    · subst h; simp
    · have : (x == k) = false := by simp [Ne.symm h]
      simp [this, h, ih]

theorem findEntry_mem {x : Name} {v : V} {es : List (Name × V)} (h : findEntry x es = some v) : (x, v) ∈ es := by
  induction es with
  | nil => cases h
  | cons p es ih =>
    obtain ⟨k, w⟩ := p
    simp only [findEntry] at h
    split at h
    · rename_i hk; cases h; subst hk; exact List.mem_cons_self
    · exact List.mem_cons_of_mem _ (ih h)

theorem NoMacro.own {s : St σ} {x : Name} (h : NoMacro s x) {e v} (hv : lookOwn s.frames e x = some v) :
    isMacro v = false := by
  unfold lookOwn at hv
  split at hv
  · rename_i f hf
    exact h.1 f (List.mem_of_getElem? hf) v (findEntry_mem hv)
  · cases hv

theorem NoMacro.ob {s : St σ} {x : Name} (h : NoMacro s x) {m v} (hv : obLookup s.mods m x = some v) :
    isMacro v = false := by
  unfold obLookup at hv
  split at hv
  · rename_i f hf
    exact h.2 f (List.mem_of_getElem? hf) v (findEntry_mem hv)
  · cases hv

theorem NoMacro.op {s : St σ} {x : Name} (h : NoMacro s x) {e v} (hv : opValue s e x = some v) :
    isMacro v = false := by
  unfold opValue at hv
  split at hv
  · rename_i w hw; cases hv; exact h.own hw
  · split at hv
    · rename_i w hw
      cases hv
      split at hw
      · split at hw
        · rename_i u hu; cases hw; exact h.ob hu
        · split at hw
          · cases hw
          · split at hw
            · exact h.ob hw
            · cases hw
      · cases hw
    · split at hv
      · rename_i w hw
        split at hv
        · cases hv; exact h.own hw
        · cases hv
      · cases hv

theorem evalPair_form {P : Prims σ} {rec : Rec σ} {env x rest s} {f : Form} (h : NoMacro s x) (hf : formOf x = some f) :
    evalPair P rec env (.sym x) rest s = evalForm P rec f env rest s := by
  unfold evalPair
  simp only [getSt_bind]
  cases hv : opValue s env x with
  | none => simp only [hf]
  | some v =>
    have := h.op hv
    cases v <;> simp only [hf] <;> cases this

/-- A special form is evaluated by its own rule. -/
theorem evals_form {P : Prims σ} {env x rest s o s'} {f : Form} (h : NoMacro s x) (hf : formOf x = some f) :
    Evals P env (.pair (.sym x) rest) s o s' ↔ evalForm P (run P) f env rest s = some (o, s') := by
  rw [evals_step]
  show evalPair P (run P) env (.sym x) rest s = _ ↔ _
  rw [evalPair_form h hf]

theorem nodes_listOf (xs : List V) : nodes (listOf xs) = xs := by
  induction xs with
  | nil => rfl
  | cons x xs ih => simp [listOf, nodes, ih]

/-! ## Sequences -/

theorem evalArgs_iff {P : Prims σ} {env xs s o s'} :
    evalArgs (run P) env xs s = some (o, s') ↔ ArgsEval (Evals P) env xs s o s' := by
  induction xs generalizing s o s' with
  | nil =>
    simp only [evalArgs, pure_apply, Option.some.injEq, Prod.mk.injEq]
    constructor
    · rintro ⟨rfl, rfl⟩; exact .nil
    · rintro ⟨⟩; exact ⟨rfl, rfl⟩
  | cons x xs ih =>
    simp only [evalArgs, bind_eq_some, pure_apply, Option.some.injEq, Prod.mk.injEq]
    constructor
    · rintro (⟨v, s1, hx, (⟨vs, s2, hxs, rfl, rfl⟩ | ⟨e, hxs, rfl⟩)⟩ | ⟨e, hx, rfl⟩)
      · exact .cons (evals_iff.2 hx) (ih.1 hxs)
      · exact .failTail (evals_iff.2 hx) (ih.1 hxs)
      · exact .fail (evals_iff.2 hx)
    · intro h
      cases h with
      | fail h => exact .inr ⟨_, evals_iff.1 h, rfl⟩
      | failTail h k => exact .inl ⟨_, _, evals_iff.1 h, .inr ⟨_, ih.2 k, rfl⟩⟩
      | cons h k => exact .inl ⟨_, _, evals_iff.1 h, .inl ⟨_, _, ih.2 k, rfl, rfl⟩⟩

theorem evalSeq_iff {P : Prims σ} {env x xs s o s'} :
    evalSeq (run P) env (x :: xs) s = some (o, s') ↔ SeqEval (Evals P) env (x :: xs) s o s' := by
  induction xs generalizing x s with
  | nil =>
    simp only [evalSeq]
    constructor
    · intro h; exact .last (evals_iff.2 h)
    · intro h
      cases h with
      | last h => exact evals_iff.1 h
  | cons y ys ih =>
    simp only [evalSeq, bind_eq_some]
    constructor
    · rintro (⟨v, s1, hx, h⟩ | ⟨e, hx, rfl⟩)
      · exact .next (evals_iff.2 hx) (ih.1 h)
      · exact .fail (evals_iff.2 hx)
    · intro h
      cases h with
      | next h k => exact .inl ⟨_, _, evals_iff.1 h, ih.2 k⟩
      | fail h => exact .inr ⟨_, evals_iff.1 h, rfl⟩

/-! ## Lexical lookup -/

theorem hasEntry_iff {x es} : hasEntry x es = true ↔ ∃ v, es.lookup x = some v := by
  unfold hasEntry
  rw [← lookup_eq_findEntry, Option.isSome_iff_exists]

theorem findFrame_sound {fr x n e i} (h : findFrame fr x n e = some i) : ∃ v, Binds fr x e i v := by
  induction n generalizing e with
  | zero => cases h
  | succ n ih =>
    unfold findFrame at h
    split at h
    · cases h
    · rename_i f hf
      split at h
      · rename_i hh
        cases h
        obtain ⟨v, hv⟩ := hasEntry_iff.1 hh
        exact ⟨v, .here hf hv⟩
      · rename_i hh
        have hn : f.entries.lookup x = Option.none := by
          cases hl : f.entries.lookup x with
          | none => rfl
          | some v => exact absurd (hasEntry_iff.2 ⟨v, hl⟩) hh
        split at h
        · rename_i p hp
          obtain ⟨v, hv⟩ := ih h
          exact ⟨v, .up hf hn hp hv⟩
        · cases h

theorem findFrame_complete {fr x e i v} (w : FramesWF fr) (h : Binds fr x e i v) :
    ∀ n, e < n → findFrame fr x n e = some i := by
  induction h with
  | here hf hv =>
    intro n hn
    cases n with
    | zero => omega
    | succ n => simp only [findFrame, hf]; rw [if_pos (hasEntry_iff.2 ⟨_, hv⟩)]
  | up hf hn' hp _ ih =>
    intro n hn
    cases n with
    | zero => omega
    | succ n =>
      simp only [findFrame, hf]
      rw [if_neg]
      · rw [hp]
        have := w _ _ _ hf hp
        exact ih n (by omega)
      · intro hh
        obtain ⟨v, hv⟩ := hasEntry_iff.1 hh
        rw [hn'] at hv; cases hv

theorem Binds.own {fr x e i v} (h : Binds fr x e i v) : lookOwn fr i x = some v := by
  induction h with
  | here hf hv => simp only [lookOwn, hf]; rw [← lookup_eq_findEntry, hv]
  | up _ _ _ _ ih => exact ih

theorem Binds.at {fr x e i v} (h : Binds fr x e i v) : ∃ f, fr[i]? = some f ∧ f.entries.lookup x = some v := by
  induction h with
  | here hf hv => exact ⟨_, hf, hv⟩
  | up _ _ _ _ ih => exact ih

theorem Binds.unique {fr x e i v j w} (h : Binds fr x e i v) (k : Binds fr x e j w) : i = j ∧ v = w := by
  induction h with
  | here hf hv =>
    cases k with
    | here kf kv => rw [hf] at kf; cases kf; rw [hv] at kv; cases kv; exact ⟨rfl, rfl⟩
    | up kf kn _ _ => rw [hf] at kf; cases kf; rw [hv] at kn; cases kn
  | up hf hn hp _ ih =>
    cases k with
    | here kf kv => rw [hf] at kf; cases kf; rw [hn] at kv; cases kv
    | up kf kn kp k => rw [hf] at kf; cases kf; rw [hp] at kp; cases kp; exact ih k

theorem lookChain_iff {fr x e v} (w : FramesWF fr) : lookChain fr e x = some v ↔ ∃ i, Binds fr x e i v := by
  unfold lookChain
  constructor
  · intro h
    split at h
    · rename_i i hi
      obtain ⟨v', hv'⟩ := findFrame_sound hi
      rw [hv'.own] at h; cases h
      exact ⟨i, hv'⟩
    · cases h
  · rintro ⟨i, h⟩
    rw [findFrame_complete w h (e + 1) (by omega)]
    exact h.own

theorem lookChain_none {fr x e} (w : FramesWF fr) : lookChain fr e x = Option.none ↔ Unbound fr x e := by
  constructor
  · intro h i v hb
    rw [(lookChain_iff w).2 ⟨i, hb⟩] at h; cases h
  · intro h
    cases hl : lookChain fr e x with
    | none => rfl
    | some v => obtain ⟨i, hi⟩ := (lookChain_iff w).1 hl; exact absurd hi (h i v)

theorem findFrame_none {fr x e} (w : FramesWF fr) : findFrame fr x (e + 1) e = Option.none ↔ Unbound fr x e := by
  constructor
  · intro h i v hb
    rw [findFrame_complete w hb (e + 1) (by omega)] at h; cases h
  · intro h
    cases hl : findFrame fr x (e + 1) e with
    | none => rfl
    | some i => obtain ⟨v, hv⟩ := findFrame_sound hl; exact absurd hv (h i v)

theorem chainModule_iff {fr e m} (w : FramesWF fr) : ∀ n, e < n → (chainModule fr n e = some m ↔ ModuleOf fr e m) := by
  intro n hn
  constructor
  · intro h
    clear hn
    induction n generalizing e with
    | zero => cases h
    | succ n ih =>
      unfold chainModule at h
      split at h
      · cases h
      · rename_i f hf
        split at h
        · rename_i m' hm; cases h; exact .here hf hm
        · rename_i hm
          split at h
          · rename_i p hp; exact .up hf hm hp (ih h)
          · cases h
  · intro h
    induction h generalizing n with
    | here hf hm =>
      cases n with
      | zero => omega
      | succ n => simp only [chainModule, hf, hm]
    | up hf hm hp _ ih =>
      cases n with
      | zero => omega
      | succ n =>
        have := w _ _ _ hf hp
        simp only [chainModule, hf, hm, hp]
        exact ih n (by omega)

/-! ## Module lookup -/

theorem obLookup_eq (ms : List Modl) (m : Nat) (x : Name) : obLookup ms m x = ownValue ms x m := by
  unfold obLookup ownValue
  cases ms[m]? with
  | none => rfl
  | some md => simp [lookup_eq_findEntry]

theorem firstWith_findSome (ms : List Modl) (x : Name) (us : List Nat) :
    (match firstWith ms x us with
      | some u => obLookup ms u x
      | Option.none => Option.none) = us.findSome? (ownValue ms x) := by
  induction us with
  | nil => rfl
  | cons u us ih =>
    simp only [firstWith, List.findSome?_cons]
    cases h : ownValue ms x u with
    | none => simp only [obLookup_eq, h, Option.isSome_none]; simpa [obLookup_eq] using ih
    | some v => simp [obLookup_eq, h]

theorem searchModule_eq (ms : List Modl) (root m : Nat) (x : Name) :
    searchModule ms root m x = moduleValue ms root m x := by
  unfold searchModule findModule moduleValue searchOrder
  cases hm : ms[m]? with
  | none =>
    have : obLookup ms m x = Option.none := by simp [obLookup, hm]
    simp [this]
  | some md =>
    have hfw := firstWith_findSome ms x md.uses
    simp only [obLookup_eq] at hfw ⊢
    simp only [List.cons_append, List.findSome?_cons, List.findSome?_append, List.findSome?_nil]
    cases h : ownValue ms x m with
    | some v => simp [h]
    | none =>
      simp only [Option.isSome_none, Bool.false_eq_true, if_false]
      cases hu : firstWith ms x md.uses with
      | some u =>
        rw [hu] at hfw
        simp only at hfw
        simp only
        rw [← hfw]
        have : ∃ v, ownValue ms x u = some v := by
          clear hfw
          generalize md.uses = us at hu
          induction us with
          | nil => cases hu
          | cons a us ih =>
            simp only [firstWith] at hu
            split at hu
            · rename_i hh; cases hu; rw [obLookup_eq] at hh; exact Option.isSome_iff_exists.1 hh
            · exact ih hu
        obtain ⟨v, hv⟩ := this
        simp [hv]
      | none =>
        rw [hu] at hfw
        simp only at hfw
        simp only
        rw [← hfw]
        by_cases hr : m = root
        · subst hr; simp [h]
        · cases hrv : ownValue ms x root <;> simp [hr, hrv]

theorem findModule_eq (ms : List Modl) (root m : Nat) (x : Name) :
    findModule ms root m x = (searchOrder ms root m).find? fun u => (ownValue ms x u).isSome := by
  have hfw : ∀ us, firstWith ms x us = us.find? fun u => (ownValue ms x u).isSome := by
    intro us
    induction us with
    | nil => rfl
    | cons u us ih =>
      simp only [firstWith, List.find?_cons, obLookup_eq]
      cases (ownValue ms x u).isSome <;> simp [ih]
  unfold findModule searchOrder
  simp only [obLookup_eq]
  cases hm : ms[m]? with
  | none => simp [ownValue, hm]
  | some md =>
    simp only [List.cons_append, List.find?_cons, List.find?_append, List.find?_nil, hfw]
    cases h : ownValue ms x m with
    | some v => simp
    | none =>
      simp only [Option.isSome_none, Bool.false_eq_true, if_false]
      cases hu : md.uses.find? fun u => (ownValue ms x u).isSome with
      | some u => simp
      | none =>
        by_cases hr : m = root
        · subst hr; simp [h]
        · cases hrv : ownValue ms x root <;> simp [hr]

theorem lookup_setEntry (x y : Name) (v : V) (es : List (Name × V)) :
    (setEntry x v es).lookup y = if y = x then (es.lookup x).map (fun _ => v) else es.lookup y := by
  simp only [lookup_eq_findEntry]
  induction es with
  | nil => simp [setEntry, findEntry]
  | cons p es ih =>
    obtain ⟨k, w⟩ := p
    simp only [setEntry]
    by_cases hk : k = x
    · subst hk
      simp only [if_true, findEntry]
      by_cases hy : y = k
      · subst hy; simp
      · have hy' : ¬ k = y := fun h => hy h.symm
        simp [hy, hy']
    · simp only [hk, if_false, findEntry, ih]
      by_cases hy : y = x
      · subst hy; simp [hk]
      · simp [hy]

theorem lookup_upsert (x y : Name) (v : V) (es : List (Name × V)) :
    (upsert x v es).lookup y = if y = x then some v else es.lookup y := by
  unfold upsert
  split
  · rename_i h
    obtain ⟨w, hw⟩ := hasEntry_iff.1 h
    rw [lookup_setEntry, hw]; rfl
  · by_cases hy : y = x
    · subst hy; simp [List.lookup]
    · have : (y == x) = false := by simp [hy]
      simp [List.lookup, this, hy]

theorem lookup_upsert_self (x : Name) (v : V) (es : List (Name × V)) : (upsert x v es).lookup x = some v := by
  simp [lookup_upsert]
theorem lookup_upsert_ne {x z : Name} (h : z ≠ x) (v : V) (es : List (Name × V)) :
    (upsert x v es).lookup z = es.lookup z := by
  simp [lookup_upsert, h]

theorem ownValue_obSet {ms : List Modl} {m : Nat} {md : Modl} (h : ms[m]? = some md) {x : Name} {v : V} (z : Name) (u : Nat) :
    ownValue (obSet ms m x v) z u = if z = x ∧ u = m then some v else ownValue ms z u := by
  unfold obSet
  rw [h]
  have hlt : m < ms.length := (List.getElem?_eq_some_iff.1 h).1
  unfold ownValue
  by_cases hu : u = m
  · subst hu
    simp only [List.getElem?_set_self hlt, Option.bind_some, lookup_upsert, and_true, h]
  · have : ¬ m = u := fun h => hu h.symm
    simp only [List.getElem?_set_ne this, hu, and_false, if_false]

/-- Updating the first entry for `x` in frame `i`. -/
theorem binds_setEntry {fr : List Frame} {x : Name} {i : Nat} {v w : V}
    (hi : ∃ f : Frame, fr[i]? = some f ∧ f.entries.lookup x = some w) (z : Name) (e' j : Nat) (u : V) :
    Binds (updFrame fr i (setEntry x v)) z e' j u ↔
      if z = x ∧ j = i then u = v ∧ ∃ u0, Binds fr z e' j u0 else Binds fr z e' j u := by
  have look : ∀ (e : Nat) (f : Frame), fr[e]? = some f →
      ((if e = i then { f with entries := setEntry x v f.entries } else f : Frame).entries.lookup z) =
        if e = i ∧ z = x then (f.entries.lookup x).map (fun _ => v) else f.entries.lookup z := by
    intro e f _
    by_cases he : e = i
    · simp only [he, if_true, lookup_setEntry, true_and]
    · simp [he]
  constructor
  · intro h
    induction h with
    | @here e f u hf hv =>
      rw [getElem?_updFrame] at hf
      cases hfe : fr[e]? with
      | none => rw [hfe] at hf; cases hf
      | some g =>
        rw [hfe] at hf
        cases hf
        rw [look e g hfe] at hv
        by_cases hc : e = i ∧ z = x
        · obtain ⟨rfl, rfl⟩ := hc
          obtain ⟨f', hf', hw⟩ := hi
          rw [hfe] at hf'; cases hf'
          rw [hw] at hv
          simp at hv
          simp only [and_self, if_true]
          exact ⟨hv.symm, w, .here hfe hw⟩
        · rw [if_neg hc] at hv
          rw [if_neg (by intro h; exact hc ⟨h.2, h.1⟩)]
          exact .here hfe hv
    | @up e f p j u hf hn hp _ ih =>
      rw [getElem?_updFrame] at hf
      cases hfe : fr[e]? with
      | none => rw [hfe] at hf; cases hf
      | some g =>
        rw [hfe] at hf
        cases hf
        rw [look e g hfe] at hn
        have hp' : g.parent = some p := by
          rw [← hp]; split <;> rfl
        have hn' : g.entries.lookup z = Option.none := by
          by_cases hc : e = i ∧ z = x
          · obtain ⟨rfl, rfl⟩ := hc
            simpa using hn
          · rwa [if_neg hc] at hn
        split
        · rename_i hc
          rw [if_pos hc] at ih
          obtain ⟨h1, u0, h2⟩ := ih
          exact ⟨h1, u0, .up hfe hn' hp' h2⟩
        · rename_i hc
          rw [if_neg hc] at ih
          exact .up hfe hn' hp' ih
  · intro h
    have up' : ∀ {e j u0}, Binds fr z e j u0 →
        Binds (updFrame fr i (setEntry x v)) z e j (if z = x ∧ j = i then v else u0) := by
      intro e j u0 hb
      induction hb with
      | @here e f u0 hf hv =>
        refine .here (f := if e = i then { f with entries := setEntry x v f.entries } else f) ?_ ?_
        · rw [getElem?_updFrame, hf]; rfl
        · rw [look e f hf]
          by_cases hc : e = i ∧ z = x
          · obtain ⟨rfl, rfl⟩ := hc
            simp [hv]
          · rw [if_neg hc, if_neg (by intro h; exact hc ⟨h.2, h.1⟩), hv]
      | @up e f p j u0 hf hn hp _ ih =>
        refine .up (f := if e = i then { f with entries := setEntry x v f.entries } else f) (p := p) ?_ ?_ ?_ ih
        · rw [getElem?_updFrame, hf]; rfl
        · rw [look e f hf]
          split
          · rename_i hc
            rw [← hc.2, hn]; rfl
          · exact hn
        · rw [← hp]; split <;> rfl
    split at h
    · rename_i hc
      obtain ⟨rfl, u0, hb⟩ := h
      have := up' hb
      rwa [if_pos hc] at this
    · rename_i hc
      have := up' h
      rwa [if_neg hc] at this

end Pscm.Ev
