import Verif.ModApi
import Verif.EvApi2Props
import Verif.EvLoadProps
/-!
# C134: modules from C
-/
namespace Pscm
open Pscm.Ev
variable {σ : Type} {P : Prims σ}

/-! ## Lemmas -/

/-- The definitions `ds` made in the module `m`. -/
def defAll (ms : List Modl) (m : Nat) (ds : List (Name × V)) : List Modl := ds.foldl (fun ms d => obSet ms m d.1 d.2) ms

theorem defAll_get (ds : List (Name × V)) (ms : List Modl) (m i : Nat) : (defAll ms m ds)[i]? = (ms[i]?).map fun md =>
    if i = m then { md with obarray := ds.foldl (fun o d => upsert d.1 d.2 o) md.obarray } else md := by
  induction ds generalizing ms with
  | nil => simp [defAll]
  | cons d ds ih =>
    show (defAll (obSet ms m d.1 d.2) m ds)[i]? = _
    rw [ih]
    unfold obSet
    cases hm : ms[m]? with
    | none =>
      by_cases hi : i = m
      · subst hi; simp [hm]
      · simp [hi]
    | some md =>
      have hlt : m < ms.length := (List.getElem?_eq_some_iff.1 hm).1
      simp only [getElem?_setM _ _ _ hlt]
      by_cases hi : i = m
      · subst hi; simp [hm]
      · simp [hi]

theorem lookup_defs (ds : List (Name × V)) (x : Name) (v : V) : ∀ o : List (Name × V), ds.reverse.lookup x = some v →
    (ds.foldl (fun o d => upsert d.1 d.2 o) o).lookup x = some v := by
  suffices h : ∀ o : List (Name × V), (ds.foldl (fun o d => upsert d.1 d.2 o) o).lookup x = (ds.reverse.lookup x).or (o.lookup x) by
    intro o ho
    rw [h, ho]
    rfl
  induction ds with
  | nil => intro o; rfl
  | cons d ds ih =>
    intro o
    rw [List.foldl_cons, ih, List.reverse_cons, List.lookup_append, Option.or_assoc]
    congr 1
    by_cases hx : x = d.1
    · subst hx
      rw [lookup_upsert_self]
      simp [List.lookup]
    · rw [lookup_upsert_ne hx]
      simp [List.lookup, beq_eq_false_iff_ne.2 hx]

theorem cDefineAll_apply (ds : List (Name × V)) (s : St σ) : cDefineAll ds s = some (.ok (), { s with mods := defAll s.mods s.cur ds }) := by
  induction ds generalizing s with
  | nil => rfl
  | cons d ds ih =>
    obtain ⟨x, v⟩ := d
    show (cDefine x v >>= fun _ => cDefineAll ds) s = _
    rw [bind_apply, cDefine_apply]
    show cDefineAll ds (definedFromC s x v) = _
    rw [ih]
    rfl

/-! ## C134 -/

/-- C134: `scm_c_call_with_current_module (m, func)` runs `func` with `m` as the current module; when `func` returns, its result is returned and the
current module is the one of before, whatever `func` did; nothing else is touched.  Partial: `func` returns. -/
theorem c134_call_partial {m : Nat} {func : EM σ V} {s s1 : St σ} {v : V} (h : func { s with cur := m } = some (.ok v, s1)) :
    cCallWithModule (.modl m) func s = some (.ok v, { s1 with cur := s.cur }) := by
  show (func >>= fun r => _) { s with cur := m } = _
  rw [bind_apply, h]
  rfl

/-- C134 fails for errors: if `func` is left by an error or a jump, the current module stays what it was at that point, here `m`, also after the error has
been reported to the host. -/
theorem c134_error_fails {m : Nat} {func : EM σ V} {s s1 : St σ} {x : Stop} (h : func { s with cur := m } = some (.stop x, s1)) :
    cCallWithModule (.modl m) func s = some (.stop x, s1) ∧
    ∀ (k : Name) (a : V) (s0 : St σ), s0.catches.length < 100 →
      s = { s0 with next := s0.next + 1, catches := ⟨s0.next, .bool true⟩ :: s0.catches, live := s0.next :: s0.live } →
      x = .err (some s0.next) k a → ∃ s', apiCatch (cCallWithModule (.modl m) func >>= fun v => pure (.value v)) s0 = some (.ok (.failed k a), s') ∧
        s'.cur = s1.cur ∧ s'.mods = s1.mods := by
  have h1 : cCallWithModule (.modl m) func s = some (.stop x, s1) := by
    show (func >>= fun r => _) { s with cur := m } = _
    rw [bind_apply, h]
  refine ⟨h1, ?_⟩
  rintro k a s0 hl rfl rfl
  unfold apiCatch
  rw [Ev.getSt_bind, if_neg (by omega)]
  show ∃ s', EM.handle (cCallWithModule (.modl m) func >>= fun v => pure (ApiRes.value v)) _ { s0 with next := s0.next + 1, catches := ⟨s0.next, .bool true⟩ :: s0.catches, live := s0.next :: s0.live } = some (_, s') ∧ _
  unfold EM.handle
  rw [bind_apply, h1]
  simp only [if_true]
  exact ⟨_, rfl, rfl, rfl⟩

/-- C134: anything but a module is refused, and `func` is not called. -/
theorem c134_not_module {m : V} {func : EM σ V} {s : St σ} (h : ∀ k, m ≠ .modl k) :
    cCallWithModule m func s = some (errorWith s "scm_c_call_with_current_module: expected module", s) := by
  cases m <;> first | rfl | exact absurd rfl (h _)

theorem resolves_cur {xs : List Name} {s s1 : St σ} {m : Nat} (hr : Resolves P xs s (.ok m) s1) : s1.cur = s.cur := by
  cases hr <;> rfl

theorem cNamed_resolves {xs : List Name} {s s1 : St σ} {o : Out Nat} {g : Frame} (hx : xs ≠ []) (h0 : s.frames[0]? = some g)
    (hr : Resolves P xs s o s1) : cNamedModule P (run P) (.datum (nameOf xs)) s = some (o, s1) := by
  cases xs with
  | nil => exact absurd rfl hx
  | cons y ys => exact resolves_sound h0 hr

/-- C134: `scm_c_define_module (name, init)` resolves the module as `(resolve-module name)` does, runs `init` with this module as the current one, puts the
current module back, and returns the module.  Partial: `init` returns. -/
theorem c134_define_module_partial {xs : List Name} {init : EM σ Unit} {s s1 s2 : St σ} {m : Nat} {g : Frame} (hx : xs ≠ []) (h0 : s.frames[0]? = some g)
    (hr : Resolves P xs s (.ok m) s1) (hi : init { s1 with cur := m } = some (.ok (), s2)) :
    cDefineModule P (run P) (.datum (nameOf xs)) (some init) s = some (.ok m, { s2 with cur := s.cur }) := by
  unfold cDefineModule
  rw [bind_apply, cNamed_resolves hx h0 hr]
  show (init >>= fun _ => _) { s1 with cur := m } = _
  rw [bind_apply, hi]
  show some (Out.ok m, { s2 with cur := s1.cur }) = _
  rw [resolves_cur hr]

/-- C134 fails for errors here too: the module stays current. -/
theorem c134_define_module_fails {xs : List Name} {init : EM σ Unit} {s s1 s2 : St σ} {m : Nat} {x : Stop} {g : Frame} (hx : xs ≠ [])
    (h0 : s.frames[0]? = some g) (hr : Resolves P xs s (.ok m) s1) (hi : init { s1 with cur := m } = some (.stop x, s2)) :
    cDefineModule P (run P) (.datum (nameOf xs)) (some init) s = some (.stop x, s2) := by
  unfold cDefineModule
  rw [bind_apply, cNamed_resolves hx h0 hr]
  show (init >>= fun _ => _) { s1 with cur := m } = _
  rw [bind_apply, hi]

/-- C134: `scm_c_use_module (name)` resolves the module and puts its interface in front of the other imports of the current module, and of no other. -/
theorem c134_use {xs : List Name} {s s1 : St σ} {u : Nat} {md : Modl} {g : Frame} (hx : xs ≠ []) (h0 : s.frames[0]? = some g)
    (hr : Resolves P xs s (.ok u) s1) (hc : s1.mods[s.cur]? = some md) :
    ∃ s', cUseModule P (run P) (.datum (nameOf xs)) s = some (.ok (), s') ∧ s'.cur = s.cur ∧
      searchOrder s'.mods s'.root s.cur = s.cur :: ((s1.mods[u]?.bind Modl.pub).getD u :: md.uses) ++ [s1.root] ∧
      (∀ z k, ownValue s'.mods z k = ownValue s1.mods z k) ∧
      ∀ k, k ≠ s.cur → searchOrder s'.mods s'.root k = searchOrder s1.mods s1.root k := by
  have hcur := resolves_cur hr
  refine ⟨{ s1 with mods := useModule s1.mods s1.cur u }, ?_, hcur, ?_, ?_, ?_⟩
  · unfold cUseModule
    rw [bind_apply, cNamed_resolves hx h0 hr]
    rfl
  all_goals
    rw [← hcur] at hc
    have hset : useModule s1.mods s1.cur u = s1.mods.set s1.cur { md with uses := ifaceOf s1.mods u :: md.uses } := by
      unfold useModule
      rw [hc]
    have hlt : s1.cur < s1.mods.length := (List.getElem?_eq_some_iff.1 hc).1
  · have hi : ifaceOf s1.mods u = (s1.mods[u]?.bind Modl.pub).getD u := by
      unfold ifaceOf
      cases s1.mods[u]? <;> rfl
    rw [← hcur, ← hi]
    simp only [searchOrder, hset, List.getElem?_set_self hlt]
  · intro z k
    unfold ownValue
    show ((useModule s1.mods s1.cur u)[k]?.bind _) = _
    rw [hset]
    by_cases hk : k = s1.cur
    · subst hk
      rw [List.getElem?_set_self hlt, hc]
      rfl
    · rw [List.getElem?_set_ne (Ne.symm hk)]
  · intro k hk
    rw [← hcur] at hk
    unfold searchOrder
    show (match (useModule s1.mods s1.cur u)[k]? with
      | some md => k :: md.uses ++ [s1.root]
      | Option.none => []) = _
    rw [hset, List.getElem?_set_ne (Ne.symm hk)]
    rfl

/-- C134: what a host defines in a new module is visible where the module is used: `scm_c_define_module` of a new name with an `init` that defines the
variables `ds`, then `scm_c_use_module` of that name; every variable of `ds` that neither the global environment nor the current module binds has, at top
level, the value of its last definition. -/
theorem c134_import {xs : List Name} {ds : List (Name × V)} {s : St σ} {g : Frame} {paths : List String} (hx : xs ≠ []) (h0 : s.frames[0]? = some g)
    (hnew : ∀ md ∈ s.mods, md.name ≠ nameOf xs) (hs : SearchPaths s xs paths) (hf : ∀ p ∈ paths, P.file p s.ext = .missing) (hc : s.cur < s.mods.length) :
    ∃ m s1 s2, cDefineModule P (run P) (.datum (nameOf xs)) (some (cDefineAll ds)) s = some (.ok m, s1) ∧
      cUseModule P (run P) (.datum (nameOf xs)) s1 = some (.ok (), s2) ∧ s2.cur = s.cur ∧
      ∀ x v, g.entries.lookup x = Option.none → ownValue s.mods x s.cur = Option.none → ds.reverse.lookup x = some v → TopValue s2 x v := by
  let m := s.mods.length
  let ms := s.mods ++ [⟨nameOf xs, [], [], [], Option.none⟩]
  have hr : Resolves P xs s (.ok m) { s with mods := ms } := .noFile hnew hs hf
  let s1 : St σ := { s with mods := defAll ms m ds }
  have h1 : cDefineModule P (run P) (.datum (nameOf xs)) (some (cDefineAll ds)) s = some (.ok m, s1) :=
    c134_define_module_partial hx h0 hr (cDefineAll_apply ds _)
  have hget : ∀ i, i < s.mods.length → (defAll ms m ds)[i]? = s.mods[i]? := by
    intro i hi
    rw [defAll_get]
    have : ms[i]? = s.mods[i]? := List.getElem?_append_left hi
    have hne : i ≠ m := by show i ≠ s.mods.length; omega
    rw [this]
    simp [hne]
  have hgm : (defAll ms m ds)[m]? = some ⟨nameOf xs, ds.foldl (fun o d => upsert d.1 d.2 o) [], [], [], Option.none⟩ := by
    rw [defAll_get]
    have : ms[m]? = some ⟨nameOf xs, [], [], [], Option.none⟩ := by
      show (s.mods ++ [_])[s.mods.length]? = _
      simp
    rw [this]
    simp
  have hreg : Registered s1.mods (nameOf xs) m := by
    refine ⟨⟨_, hgm, rfl⟩, fun i md hi hmd => ?_⟩
    have hmd : (defAll ms m ds)[i]? = some md := hmd
    rw [hget i hi] at hmd
    exact hnew md (List.mem_of_getElem? hmd)
  have hcur : s1.mods[s1.cur]? = some s.mods[s.cur] := by
    show (defAll ms m ds)[s.cur]? = _
    rw [hget _ hc, List.getElem?_eq_getElem hc]
  obtain ⟨s2, h2, h3, h4, h5, -⟩ := c134_use (P := P) (s := s1) (s1 := s1) (g := g) hx h0 (Resolves.known (s := s1) hreg) hcur
  have hfr : s2.frames = s.frames := by
    have : cUseModule P (run P) (.datum (nameOf xs)) s1 = some (.ok (), { s1 with mods := useModule s1.mods s1.cur m }) := by
      unfold cUseModule
      rw [bind_apply, cNamed_resolves (s := s1) hx h0 (Resolves.known (s := s1) hreg)]
      rfl
    rw [this] at h2
    cases h2
    rfl
  refine ⟨m, s1, s2, h1, h2, h3, fun x v hg hown hd => ?_⟩
  refine .module (by rw [hfr]; exact h0) hg (u := m) ?_
  refine ⟨[s.cur], s.mods[s.cur].uses ++ [s1.root], ?_, ?_, ?_⟩
  · rw [h3]
    show searchOrder s2.mods s2.root s1.cur = _
    rw [h4]
    have : (s1.mods[m]?.bind Modl.pub).getD m = m := by
      show (((defAll ms m ds)[m]?).bind Modl.pub).getD m = m
      rw [hgm]
      rfl
    rw [this]
    rfl
  · rw [h5]
    show ((defAll ms m ds)[m]?).bind _ = _
    rw [hgm]
    exact lookup_defs ds x v [] hd
  · intro p hp
    simp only [List.mem_singleton] at hp
    subst hp
    rw [h5]
    show ((defAll ms m ds)[s.cur]?).bind _ = _
    rw [hget _ hc]
    exact hown

/-- C134: a text that is not a non-empty list is refused, and nothing happens. -/
theorem c134_name_error {t : ReadRes} {init : Option (EM σ Unit)} {s : St σ} (h : (∃ v, t = .datum v ∧ ∀ a d, v ≠ .pair a d) ∨ t = .nothing) :
    cDefineModule P (run P) t init s = some (.stop (throwStop s "error" (listOf [.str "invalid module name"])), s) ∧
    cUseModule P (run P) t s = some (.stop (throwStop s "error" (listOf [.str "invalid module name"])), s) := by
  have : cNamedModule P (run P) t s = some (.stop (throwStop s "error" (listOf [.str "invalid module name"])), s) := by
    rcases h with ⟨v, rfl, hv⟩ | rfl
    · cases v <;> first | rfl | exact absurd rfl (hv _ _)
    · rfl
  exact ⟨by unfold cDefineModule; rw [bind_apply, this], by unfold cUseModule; rw [bind_apply, this]⟩

/-! ## Examples -/

/-- The demonstration state with a second module. -/
def Demo.sHost : St Unit := { Demo.s0 with mods := Demo.s0.mods ++ [⟨listOf [.sym "m"], [], [], [], Option.none⟩] }

/-- `c134_call_partial` and `c134_error_fails` on `scm_c_eval_string`-like functions: `(define x 1)` goes to the module; after an error the module stays. -/
example : (∃ s', cCallWithModule (.modl 1) (ev Demo.prims 12 (.eval 0 (Demo.def' "x" 1))) Demo.sHost = some (.ok .none, s') ∧ s'.cur = 0 ∧
      ownValue s'.mods "x" 1 = some (.num 1) ∧ ownValue s'.mods "x" 0 = Option.none) ∧
    (∃ s', apiCatch (cCallWithModule (.modl 1) (ev Demo.prims 12 (.eval 0 (.sym "nowhere"))) >>= fun v => pure (.value v)) Demo.sHost =
      some (.ok (.failed "error" (listOf [.str "symbol not found"])), s') ∧ s'.cur = 1) := ⟨⟨_, rfl, rfl, rfl, rfl⟩, ⟨_, rfl, rfl⟩⟩

/-- The hypotheses of `c134_import` are met. -/
example : ∃ m s1 s2, cDefineModule Demo.prims (run Demo.prims) (.datum (nameOf ["lib"])) (some (cDefineAll [("a", .num 1), ("b", .num 2), ("a", .num 3)])) Demo.s0 =
      some (.ok m, s1) ∧ cUseModule Demo.prims (run Demo.prims) (.datum (nameOf ["lib"])) s1 = some (.ok (), s2) ∧ TopValue s2 "a" (.num 3) := by
  obtain ⟨m, s1, s2, h1, h2, -, h3⟩ := c134_import (P := Demo.prims) (xs := ["lib"]) (ds := [("a", .num 1), ("b", .num 2), ("a", .num 3)]) (s := Demo.s0)
    (g := ⟨Demo.builtins, Option.none, Option.none⟩) (paths := [fileName ["lib"]]) (by decide) rfl
    (by intro md hmd; simp only [Demo.s0, List.mem_singleton] at hmd; subst hmd; decide)
    ⟨[], .inr ⟨rfl, rfl⟩, rfl⟩ (fun _ _ => rfl) (by decide)
  exact ⟨m, s1, s2, h1, h2, h3 "a" (.num 3) (by decide) (by decide) (by decide)⟩

end Pscm
