import Verif.ModSearchLemmas
/-!
# C122 and C123: module binders and autoloads
-/
namespace Pscm.Msr

variable {W : World} {s s1 : St} {m : Nat} {x : Name} {md : Mod}

/-! ## C122: binders -/

/-- C122: for a name that is bound (by the module, an import or the root module) the binder is not consulted: the value is the bound one, nothing changes. -/
theorem c122_bound (hm : s.mods[m]? = some md) {v : Val} (hv : Visible s.mods s.root m x v) : Looks W m x s (.ok (some v)) s := by
  have hlt := (List.getElem?_eq_some_iff.1 hm).1
  exact ⟨1, by rw [search, (bound_iff hlt).2 hv], by simp⟩

theorem looks_binder (hm : s.mods[m]? = some md) (hu : ∀ v, ¬ Visible s.mods s.root m x v) {b : Nat} (hb : md.binder = some b) (hg : s.guard = false)
    {n : Nat} {r : Res Val} (hr : run W n (W.binder b m x) { s with guard := true } = (r, s1)) : search W (n + 1) m x s =
      match (r, s1) with
      | (.ok .fls, s) => autoload W n m x { s with guard := false }
      | (.ok .unboundVar, s) => (.err .evalError, { s with guard := false })
      | (.ok (.var v), s) => (.ok (some v), { s with guard := false })
      | (.ok v, s) => (.ok (some v), { s with guard := false })
      | (.err e, s) => (.err e, s)
      | (.abort, s) => (.abort, s)
      | (.ub, s) => (.ub, s)
      | (.oof, s) => (.oof, s) := by
  have hlt := (List.getElem?_eq_some_iff.1 hm).1
  rw [search, (bound_none hlt).2 hu]
  simp only [hm, hb, hg, Bool.false_eq_true, if_false]
  rw [hr]
  rfl

/-- C122: for a name that is not bound the binder of the module is called, once, with the module and the name; what it returns is the value: the contents
of a variable object (an error if that is unbound), another object itself; after `#f` the name is unbound, unless an autoload lists it. -/
theorem c122_binder (hm : s.mods[m]? = some md) (hu : ∀ v, ¬ Visible s.mods s.root m x v) {b : Nat} (hb : md.binder = some b) (hg : s.guard = false)
    {r : Val} (hr : Runs W (W.binder b m x) { s with guard := true } (.ok r) s1) :
    (∀ v, r = .var v → Looks W m x s (.ok (some v)) { s1 with guard := false }) ∧
    (r = .unboundVar → Looks W m x s (.err .evalError) { s1 with guard := false }) ∧
    ((∃ i, r = .obj i ∨ r = .mod i) → Looks W m x s (.ok (some r)) { s1 with guard := false }) ∧
    (r = .fls → ∀ md1, s1.mods[m]? = some md1 → (∀ sp ∈ md1.specs, x ∉ sp.2) → Looks W m x s (.ok none) { s1 with guard := false }) := by
  obtain ⟨n, hn, _⟩ := hr
  have h := looks_binder hm hu hb hg hn
  refine ⟨?_, ?_, ?_, ?_⟩
  · rintro v rfl; exact ⟨n + 1, h, by simp⟩
  · rintro rfl; exact ⟨n + 1, h, by simp⟩
  · rintro ⟨i, rfl | rfl⟩ <;> exact ⟨n + 1, h, by simp⟩
  · rintro rfl md1 hm1 hsp
    have hn' := run_le hn (by simp) (show n ≤ n + 1 by omega)
    have h' := looks_binder hm hu hb hg hn'
    refine ⟨n + 1 + 1, ?_, by simp⟩
    rw [h']
    simp only
    rw [autoload]
    simp only [hm1, takeSpec_none.2 hsp]

/-- C122: while a binder runs no binder is called: lookups inside it behave as if all binders were others, and it runs to its end. -/
theorem c122_nested {W' : World} (hW : W'.resolve = W.resolve) (hg : s.guard = true) {r : Res (Option Val)} (h : Looks W m x s r s1) :
    Looks W' m x s r s1 ∧ s1.guard = true := by
  obtain ⟨n, hn, hr⟩ := h
  obtain ⟨e, g⟩ := (guarded W W' hW n).2.1 m x s hg
  rw [hn] at e g
  exact ⟨⟨n, e, hr⟩, g⟩

/-- C122: a binder that itself looks up undefined names in modules with binders does not make lookups loop: without autoloads every program ends. -/
theorem c122_terminates (hW : ∀ b m x, Plain (W.binder b m x)) {p : Prog} (hp : Plain p) (hs : NoSpecs s.mods) : ∃ r s', Runs W p s r s' := by
  obtain ⟨n, hn⟩ := plain_run W hW p hp s hs
  exact ⟨_, _, n, rfl, hn⟩

/-- C122: as long as no error escapes from a binder, the binders stay in force after every program. -/
theorem c122_guard_partial {p : Prog} {v : Val} (h : Runs W p s (.ok v) s1) : s1.guard = s.guard := by
  obtain ⟨n, hn, _⟩ := h
  exact (guard_ok W n).1 _ _ _ _ hn

/-- C122 is FALSE after an error in a binder, even if it is caught: from then on no binder of any module is ever called again.  Whatever is run later gives
the same results with any other binders. -/
theorem c122_error_fails (hm : s.mods[m]? = some md) (hu : ∀ v, ¬ Visible s.mods s.root m x v) {b : Nat} (hb : md.binder = some b) (hg : s.guard = false)
    {e : Err} (hr : Runs W (W.binder b m x) { s with guard := true } (.err e) s1) :
    Looks W m x s (.err e) s1 ∧
    ∀ (W' : World) ps rs s2, W'.resolve = W.resolve → Session W ps s1 rs s2 → Session W' ps s1 rs s2 := by
  obtain ⟨n, hn, _⟩ := hr
  have hg1 : s1.guard = true := by
    have := ((guarded W W rfl n).1 (W.binder b m x) { s with guard := true } rfl).2
    rwa [hn] at this
  refine ⟨⟨n + 1, looks_binder hm hu hb hg hn, by simp⟩, ?_⟩
  intro W' ps rs s2 hW hses
  clear hn
  induction hses with
  | nil => exact .nil
  | cons hrun _ ih =>
    obtain ⟨k, hk, hne⟩ := hrun
    obtain ⟨e1, g1⟩ := (guarded W W' hW k).1 _ _ hg1
    rw [hk] at e1 g1
    exact .cons ⟨k, e1, hne⟩ (ih g1)

/-! ## C123: autoloads -/

theorem modify_at {ms : List Mod} {m : Nat} {md : Mod} (h : ms[m]? = some md) (f : Mod → Mod) : ms.modify m f = ms.set m (f md) := by
  apply List.ext_getElem?
  intro i
  have hlt := (List.getElem?_eq_some_iff.1 h).1
  rw [List.getElem?_modify]
  by_cases hi : m = i
  · subst hi
    rw [List.getElem?_set_self hlt, h]
    simp
  · rw [List.getElem?_set_ne hi]
    cases ms[i]? <;> simp [hi]

/-- No binder is called for the module: it has none, or a binder is running. -/
def NoBinder (s : St) (md : Mod) : Prop := md.binder = none ∨ s.guard = true

theorem search_autoload (hm : s.mods[m]? = some md) (hu : ∀ v, ¬ Visible s.mods s.root m x v) (hb : NoBinder s md) (n : Nat) :
    search W (n + 1) m x s = autoload W n m x s := by
  have hlt := (List.getElem?_eq_some_iff.1 hm).1
  rw [search, (bound_none hlt).2 hu]
  simp only [hm]
  rcases hb with hb | hb
  · rw [hb]
  · cases md.binder with
    | none => rfl
    | some b => simp [hb]

/-- C123: a name that is neither bound nor listed in an autoload loads nothing: it is unbound and nothing changes. -/
theorem c123_unlisted (hm : s.mods[m]? = some md) (hu : ∀ v, ¬ Visible s.mods s.root m x v) (hb : NoBinder s md) (hx : ∀ sp ∈ md.specs, x ∉ sp.2) :
    Looks W m x s (.ok none) s := by
  refine ⟨2, ?_, by simp⟩
  rw [search_autoload hm hu hb, autoload]
  simp only [hm, takeSpec_none.2 hx]

/-- C123: the first reference to a listed name that is not bound loads the module of the first spec that lists it, after the spec has been removed (so that it
is not loaded again), imports its interface into the module, and finds the name there. -/
theorem c123_loads (hm : s.mods[m]? = some md) (hu : ∀ v, ¬ Visible s.mods s.root m x v) (hb : NoBinder s md)
    {before after : List (ModName × List Name)} {n : ModName} {syms : List Name} (hsp : md.specs = before ++ (n, syms) :: after)
    (hbef : ∀ sp ∈ before, x ∉ sp.2) (hx : x ∈ syms)
    {u : Nat} {mu md1 : Mod} (hl : Runs W (W.resolve n) { s with mods := s.mods.set m { md with specs := before ++ after } } (.ok (.mod u)) s1)
    (hu1 : s1.mods[u]? = some mu) (hm1 : s1.mods[m]? = some md1) {v : Val} (hlack : Lacks s1.mods m x) (hv : Binds s1.mods (mu.iface.getD u) x v) :
    Looks W m x s (.ok (some v)) { s1 with mods := s1.mods.set m { md1 with uses := mu.iface.getD u :: md1.uses } } := by
  obtain ⟨k, hk, _⟩ := hl
  have hset : setSpecs s.mods m (before ++ after) = s.mods.set m { md with specs := before ++ after } := by
    exact modify_at hm _
  have hadd : addUse s1.mods m u = s1.mods.set m { md1 with uses := mu.iface.getD u :: md1.uses } := by
    unfold addUse
    rw [hu1]
    exact modify_at hm1 _
  have hlt1 : m < s1.mods.length := (List.getElem?_eq_some_iff.1 hm1).1
  -- the bindings are not affected by the new import
  have hob : ∀ j y w, Binds (addUse s1.mods m u) j y w ↔ Binds s1.mods j y w := by
    intro j y w
    rw [hadd]
    unfold Binds
    by_cases hj : j = m
    · subst hj
      rw [List.getElem?_set_self hlt1, hm1]
      simp
    · rw [List.getElem?_set_ne (Ne.symm hj)]
  have hvis : Visible (addUse s1.mods m u) s1.root m x v := by
    refine .used (md := { md1 with uses := mu.iface.getD u :: md1.uses }) (before := []) (u := mu.iface.getD u) (after := md1.uses)
      (fun w hw => hlack w ((hob _ _ _).1 hw)) ?_ rfl (by simp) ((hob _ _ _).2 hv)
    rw [hadd, List.getElem?_set_self hlt1]
  refine ⟨k + 1 + 1 + 1, ?_, by simp⟩
  rw [search_autoload hm hu hb, autoload]
  simp only [hm]
  rw [takeSpec_some.2 ⟨before, syms, after, hsp, hbef, hx, rfl⟩]
  simp only
  rw [hset, run_le hk (by simp) (show k ≤ k + 1 by omega)]
  simp only
  rw [search, (bound_iff (by rw [hadd, List.length_set]; exact hlt1)).2 hvis]
  simp only [hadd]

/-- C123: a failing load is reported, and the spec is gone: the name stays unbound and no second attempt is made (the state in which the load begins, and
ends unless the load itself changes the specs, has no spec for it). -/
theorem c123_failed (hm : s.mods[m]? = some md) (hu : ∀ v, ¬ Visible s.mods s.root m x v) (hb : NoBinder s md)
    {before after : List (ModName × List Name)} {n : ModName} {syms : List Name} (hsp : md.specs = before ++ (n, syms) :: after)
    (hbef : ∀ sp ∈ before, x ∉ sp.2) (hx : x ∈ syms) {e : Err}
    (hl : Runs W (W.resolve n) { s with mods := s.mods.set m { md with specs := before ++ after } } (.err e) s1) :
    Looks W m x s (.err e) s1 ∧
    (s1.mods[m]? = some { md with specs := before ++ after } → s1.guard = s.guard → (∀ v, ¬ Visible s1.mods s1.root m x v) → (∀ sp ∈ after, x ∉ sp.2) →
      Looks W m x s1 (.ok none) s1) := by
  obtain ⟨k, hk, _⟩ := hl
  have hset : setSpecs s.mods m (before ++ after) = s.mods.set m { md with specs := before ++ after } := by
    exact modify_at hm _
  refine ⟨⟨k + 1 + 1, ?_, by simp⟩, ?_⟩
  · rw [search_autoload hm hu hb, autoload]
    simp only [hm]
    rw [takeSpec_some.2 ⟨before, syms, after, hsp, hbef, hx, rfl⟩]
    simp only
    rw [hset, hk]
  · intro hm1 hg hu1 haft
    refine c123_unlisted hm1 hu1 ?_ ?_
    · rcases hb with hb | hb
      · exact .inl hb
      · exact .inr (hg.trans hb)
    · intro sp hmem
      rcases List.mem_append.1 hmem with h | h
      · exact hbef sp h
      · exact haft sp h

theorem symsOf_map (xs : List Name) : symsOf (xs.map .sym) = xs := by
  induction xs with
  | nil => rfl
  | cons x xs ih => simp [symsOf, ih]

theorem options_sym (k : Name) (is : List Item) : options false (.sym k :: is) =
    if k = "use-module" then (match is with | [] => [] | .list n :: is' => .use n :: options false is' | _ :: is' => options false is')
    else if k = "export" then options true is
    else if k = "autoload" then (match is with
      | [] => []
      | .list n :: is' => (if symsOf is' = [] then [] else [.autoload n (symsOf is')]) ++ options false is'
      | _ :: is' => options false is')
    else options false is := by
  rw [options.eq_def]
  simp only
  cases is with
  | nil => rfl
  | cons i is => cases i <;> rfl

theorem options_plain (xs : List Name) (hx : ∀ x ∈ xs, x ≠ "use-module" ∧ x ≠ "export" ∧ x ≠ "autoload") : options false (xs.map .sym) = [] := by
  induction xs with
  | nil => rfl
  | cons x xs ih =>
    obtain ⟨h1, h2, h3⟩ := hx x (by simp)
    rw [List.map_cons, options_sym, if_neg h1, if_neg h2, if_neg h3]
    exact ih fun y hy => hx y (by simp [hy])

/-- C123: `#:autoload (mod) name …` at the end of the options of `define-module` asks for an autoload of exactly these names. -/
theorem c123_option_partial (n : ModName) (xs : List Name) (hne : xs ≠ []) (hx : ∀ x ∈ xs, x ≠ "use-module" ∧ x ≠ "export" ∧ x ≠ "autoload") :
    options false (.sym "autoload" :: .list n :: xs.map .sym) = [.autoload n xs] := by
  have h1 : ("autoload" = "use-module") = False := by simp
  have h2 : ("autoload" = "export") = False := by simp
  simp only [options, h1, h2, if_false, if_true, symsOf_map, hne, options_plain xs hx, List.append_nil]

/-- C123 is FALSE for other places: every symbol that follows is listed too, whatever option it belongs to; so the names of an `#:export` that follows (and
the word `export`) trigger the load. -/
theorem c123_option_fails (n : ModName) (xs ys : List Name) (hx : ∀ x ∈ xs, x ≠ "use-module" ∧ x ≠ "export" ∧ x ≠ "autoload") :
    options false (.sym "autoload" :: .list n :: xs.map .sym ++ .sym "export" :: ys.map .sym) = .autoload n (xs ++ "export" :: ys) :: ys.map .export := by
  have h1 : ("autoload" = "use-module") = False := by simp
  have h2 : ("autoload" = "export") = False := by simp
  have e : (xs.map Item.sym ++ Item.sym "export" :: ys.map .sym) = (xs ++ "export" :: ys).map .sym := by simp
  have ho : ∀ ys : List Name, options true (ys.map .sym) = ys.map .export := by
    intro ys
    induction ys with
    | nil => rfl
    | cons y ys ih => simp [options, ih]
  have ho2 : ∀ xs : List Name, (∀ x ∈ xs, x ≠ "use-module" ∧ x ≠ "export" ∧ x ≠ "autoload") →
      options false ((xs ++ "export" :: ys).map .sym) = ys.map .export := by
    intro xs
    induction xs with
    | nil =>
      intro _
      rw [List.nil_append, List.map_cons, options_sym, if_neg (by simp), if_pos rfl, ho]
    | cons x xs ih =>
      intro hx
      obtain ⟨a1, a2, a3⟩ := hx x (by simp)
      rw [List.cons_append, List.map_cons, options_sym, if_neg a1, if_neg a2, if_neg a3]
      exact ih fun y hy => hx y (by simp [hy])
  rw [List.cons_append, List.cons_append, e]
  simp only [options, h1, h2, if_false, if_true, symsOf_map, ho2 xs hx]
  simp

/-! ## Non-vacuity -/

/-- Module 0 is the root; module 1 has binder 7 and autoloads `f` and `g` from `(lib)`; module 2 is `(lib)` with interface 3. -/
def demo : St :=
  ⟨[⟨[("car", .obj 1)], [], none, none, []⟩,
    ⟨[("own", .obj 2)], [], some 7, none, [(["lib"], ["f", "g"])]⟩,
    ⟨[], [], none, some 3, []⟩,
    ⟨[], [], none, none, []⟩], 0, false⟩

/-- The binder looks its name up again, answers a variable with 9 for `b`, fails for `bad`, and knows no other name; loading `(lib)` defines and exports `f`. -/
def demoW : World where
  binder _ m x := .look m "undefined" fun _ => if x = "b" then .ret (.var (.obj 9)) else if x = "bad" then .raise 5 else .ret .fls
  resolve _ := .edit (fun ms => ms.modify 3 fun md => { md with obarray := ("f", .obj 4) :: md.obarray }) fun _ => .ret (.mod 2)

theorem demo_hidden (x : Name) (hx : x ≠ "car" ∧ x ≠ "own") : ∀ v, ¬ Visible demo.mods demo.root 1 x v := by
  refine (bound_none (by decide)).1 ?_
  simp only [bound, demo, obLookup, List.getElem?_cons_succ, List.getElem?_cons_zero, List.lookup_cons, firstOf]
  rw [show (x == "own") = false by simpa using hx.2, show (x == "car") = false by simpa using hx.1]
  simp [List.lookup]

example : Looks demoW 1 "car" demo (.ok (some (.obj 1))) demo :=
  c122_bound (md := demo.mods[1]) rfl ((bound_iff (by decide)).1 (by decide))

example : Looks demoW 1 "b" demo (.ok (some (.obj 9))) demo :=
  (c122_binder (md := demo.mods[1]) (s1 := { demo with guard := true }) rfl (demo_hidden _ (by decide)) (b := 7) rfl rfl
    ⟨9, by decide +kernel, by simp⟩).1 _ rfl

/-- After the failing lookup of `bad`, `b` is unbound although the binder knows it. -/
example : Looks demoW 1 "bad" demo (.err (.thrown 5)) { demo with guard := true } ∧
    Looks demoW 1 "b" { demo with guard := true } (.ok none) { demo with guard := true } :=
  ⟨(c122_error_fails (md := demo.mods[1]) rfl (demo_hidden _ (by decide)) (b := 7) rfl rfl ⟨9, by decide +kernel, by simp⟩).1,
    c123_unlisted (md := demo.mods[1]) rfl (demo_hidden "b" (by decide)) (.inr rfl) (by decide)⟩

example : ∃ s1, Looks demoW 1 "f" { demo with guard := true } (.ok (some (.obj 4))) s1 ∧ (s1.mods[1]?.map (·.specs)) = some [] ∧
    (s1.mods[1]?.map (·.uses)) = some [3] :=
by
  refine ⟨_, c123_loads (W := demoW) (m := 1) (x := "f") (md := demo.mods[1]) (s := { demo with guard := true }) (before := []) (after := []) (n := ["lib"]) (syms := ["f", "g"])
    (u := 2) (mu := demo.mods[2]) (md1 := { demo.mods[1] with specs := [] }) (v := .obj 4)
    (s1 := (run demoW 9 (demoW.resolve ["lib"]) { demo with guard := true, mods := demo.mods.set 1 { demo.mods[1] with specs := [] } }).2)
    rfl (demo_hidden "f" (by decide)) (.inr rfl) rfl (by simp) (by simp) ⟨9, rfl, by simp⟩ rfl rfl
    (obLookup_none.1 (by decide)) (obLookup_iff.1 (by decide)), ?_, ?_⟩ <;> rfl

example : options false [.sym "use-module", .list ["base"], .sym "autoload", .list ["lib"], .sym "f", .sym "g"] = [.use ["base"], .autoload ["lib"] ["f", "g"]] := by
  decide
example : options false [.sym "autoload", .list ["lib"], .sym "f", .sym "export", .sym "h"] = [.autoload ["lib"] ["f", "export", "h"], .export "h"] :=
  c123_option_fails ["lib"] ["f"] ["h"] (by decide)

example : ∃ r s', Runs demoW (.look 1 "zzz" fun _ => .look 1 "b" fun r => .ret (r.getD .fls)) { demo with mods := demo.mods.map fun md => { md with specs := [] } } r s' :=
  c122_terminates (W := demoW)
    (fun b m x => .look fun r => by
      show Plain (if x = "b" then _ else if x = "bad" then _ else _)
      split
      · exact .ret
      · split
        · exact .raise
        · exact .ret)
    (.look fun _ => .look fun _ => .ret) (by simp [NoSpecs])

end Pscm.Msr
