import Verif.Debug
/-!
# C110: debug options
-/
namespace Pscm.Dbg

/-- A boolean option. -/
def IsFlag (n : String) : Prop := (n, Ty.boolean) ∈ table

/-- An option with a number. -/
def IsInt (n : String) : Prop := (n, Ty.integer) ∈ table

instance (n : String) : Decidable (IsFlag n) := inferInstanceAs (Decidable (_ ∈ _))
instance (n : String) : Decidable (IsInt n) := inferInstanceAs (Decidable (_ ∈ _))

/-- The value of `show-file-name` is not itself a `quote` form. -/
def Plain (o : Opts) : Prop := ∀ x, o.file ≠ .quote x

/-! ## Lemmas -/

theorem find_table : ∀ p ∈ table, find p.1 = some p.2 := by decide +kernel

theorem find_flag {n : String} (h : IsFlag n) : find n = some .boolean := find_table _ h
theorem find_int {n : String} (h : IsInt n) : find n = some .integer := find_table _ h

theorem flag_not_int {n : String} (h : IsFlag n) : ¬ IsInt n := fun h' => by
  have := (find_flag h).symm.trans (find_int h'); cases this

/-- The effect of one item of the setting. -/
def setItem (o a : Opts) : String × Ty → Opts
  | (n, .boolean) => if o.flag n then { a with flag := fun m => if m = n then true else a.flag m } else a
  | (n, .integer) => { a with int := fun m => if m = n then o.int n else a.int m }
  | (_, .scm) => { a with file := o.file }

/-- The list does not start with `#f`. -/
def NoFalse : List Arg → Prop
  | .bool false :: _ => False
  | _ => True

theorem noFalse_items (o : Opts) : ∀ (L : List (String × Ty)) (t : List Arg), NoFalse t → NoFalse (L.flatMap (item o) ++ t)
  | [], t, h => h
  | (n, ty) :: L, t, h => by
    cases ty with
    | boolean =>
      by_cases hf : o.flag n = true
      · simp [item, hf, NoFalse]
      · have : item o (n, .boolean) = [] := by simp [item, hf]
        rw [List.flatMap_cons, this]
        exact noFalse_items o L t h
    | integer => simp [item, NoFalse]
    | scm => simp [item, NoFalse]

theorem loop_flag {a : Opts} {n : String} {t : List Arg} (hn : find n = some .boolean) (ht : NoFalse t) :
    changeLoop a (.sym n :: t) = changeLoop { a with flag := fun m => if m = n then true else a.flag m } t := by
  rw [changeLoop]
  · simp only [extractSymbol, hn]
    split <;> simp_all [NoFalse]
  · intro b e; cases e

theorem loop_items {o : Opts} (hp : Plain o) : ∀ (L : List (String × Ty)) (a : Opts) (t : List Arg), (∀ p ∈ L, p ∈ table) → NoFalse t →
    changeLoop a (L.flatMap (item o) ++ t) = changeLoop (L.foldl (setItem o) a) t
  | [], a, t, _, _ => rfl
  | (n, ty) :: L, a, t, h, ht => by
    have hf := find_table _ (h _ (List.mem_cons_self ..))
    have ih := fun a => loop_items hp L a t (fun p hp => h p (List.mem_cons_of_mem _ hp)) ht
    cases ty with
    | boolean =>
      by_cases hb : o.flag n = true
      · have e : item o (n, .boolean) = [.sym n] := by simp [item, hb]
        rw [List.flatMap_cons, e, List.append_assoc, List.singleton_append, loop_flag hf (noFalse_items o L t ht), ih]
        simp [setItem, hb]
      · have e : item o (n, .boolean) = [] := by simp [item, hb]
        rw [List.flatMap_cons, e, List.nil_append, ih]
        simp [setItem, hb]
    | integer =>
      have e : item o (n, .integer) = [.sym n, .num (o.int n)] := rfl
      rw [List.flatMap_cons, e, List.append_assoc, List.cons_append, List.cons_append, List.nil_append, changeLoop]
      · simp only [extractSymbol, hf]
        rw [ih]; rfl
      · intro b e; cases e
    | scm =>
      have e : item o (n, .scm) = [.sym n, o.file] := rfl
      have hv : optionValue o.file = o.file := by
        unfold optionValue; split
        · rename_i y e; exact absurd e (hp y)
        · rfl
      rw [List.flatMap_cons, e, List.append_assoc, List.cons_append, List.cons_append, List.nil_append, changeLoop]
      · simp only [extractSymbol, hf, hv]
        rw [ih]; rfl
      · intro b e; cases e

theorem items_flag (o : Opts) (n : String) : ∀ (L : List (String × Ty)) (a : Opts),
    (L.foldl (setItem o) a).flag n = true ↔ a.flag n = true ∨ ((n, Ty.boolean) ∈ L ∧ o.flag n = true)
  | [], a => by simp
  | (m, ty) :: L, a => by
    rw [List.foldl_cons, items_flag o n L]
    cases ty <;> simp only [setItem, List.mem_cons, Prod.mk.injEq, and_true, and_false, false_or, reduceCtorEq]
    split
    · rename_i hm
      by_cases hnm : n = m
      · subst hnm; simp [hm]
      · simp [hnm]
    · rename_i hm
      by_cases hnm : n = m
      · subst hnm; simp_all
      · simp [hnm]

theorem setItem_int (o a : Opts) (m n : String) : (setItem o a (m, .boolean)).int n = a.int n := by
  simp only [setItem]; split <;> rfl

theorem setItem_file (o a : Opts) (m : String) : (setItem o a (m, .boolean)).file = a.file := by
  simp only [setItem]; split <;> rfl

theorem items_int (o : Opts) (n : String) : ∀ (L : List (String × Ty)) (a : Opts),
    (L.foldl (setItem o) a).int n = if (n, Ty.integer) ∈ L then o.int n else a.int n
  | [], a => by simp
  | (m, ty) :: L, a => by
    rw [List.foldl_cons, items_int o n L]
    cases ty
    · rw [setItem_int]; simp
    · by_cases hnm : n = m
      · subst hnm; simp [setItem]
      · simp [hnm, setItem]
    · simp [setItem]

theorem items_file (o : Opts) : ∀ (L : List (String × Ty)) (a : Opts),
    (a.file = o.file → (L.foldl (setItem o) a).file = o.file) ∧ ((∃ n, (n, Ty.scm) ∈ L) → (L.foldl (setItem o) a).file = o.file)
  | [], a => by simp
  | (m, ty) :: L, a => by
    have ih := items_file o L (setItem o a (m, ty))
    rw [List.foldl_cons]
    cases ty
    · rw [setItem_file] at ih
      simpa using ih
    · simpa [setItem] using ih
    · exact ⟨fun _ => ih.1 rfl, fun _ => ih.1 rfl⟩

/-- The options after the setting of `o` was processed from the options `a`. -/
def applied (o a : Opts) : Opts := table.reverse.foldl (setItem o) a

theorem applied_flag (o a : Opts) (n : String) : (applied o a).flag n = true ↔ a.flag n = true ∨ (IsFlag n ∧ o.flag n = true) := by
  rw [applied, items_flag, List.mem_reverse]; rfl

theorem applied_int (o a : Opts) {n : String} (h : IsInt n) : (applied o a).int n = o.int n := by
  rw [applied, items_int, if_pos (List.mem_reverse.2 h)]

theorem applied_file (o a : Opts) : (applied o a).file = o.file := by
  exact (items_file o _ a).2 ⟨"show-file-name", by decide +kernel⟩

theorem loop_setting {o : Opts} (hp : Plain o) (a : Opts) {t : List Arg} (ht : NoFalse t) :
    changeLoop a (setting o ++ t) = changeLoop (applied o a) t := loop_items hp _ a t (fun _ h => List.mem_reverse.1 h) ht

theorem setting_ne (o : Opts) (t : List Arg) : setting o ++ t ≠ [] := by
  intro h
  have : (Arg.sym "width") ∈ setting o := List.mem_flatMap.2 ⟨("width", .integer), by decide +kernel, by simp [item]⟩
  rw [(List.append_eq_nil_iff.1 h).1] at this
  cases this

theorem noFalse_setting (o : Opts) : NoFalse (setting o) := by
  have := noFalse_items o table.reverse [] trivial
  rwa [List.append_nil] at this

theorem interface_ok {o o' : Opts} {args : List Arg} (ha : args ≠ []) (h : changeLoop { o with flag := fun _ => false } args = .ok o') :
    interface o args = (.ok (setting o'), o') := by
  simp [interface, ha, change, h]

theorem loop_flags (F : List String) : ∀ (a : Opts) (t : List Arg), (∀ f ∈ F, IsFlag f) → NoFalse t →
    ∃ b : Opts, changeLoop a (F.map Arg.sym ++ t) = changeLoop b t ∧ b.int = a.int ∧ b.file = a.file ∧
      ∀ n, b.flag n = true ↔ a.flag n = true ∨ n ∈ F := by
  induction F with
  | nil => intro a t _ _; exact ⟨a, rfl, rfl, rfl, by simp⟩
  | cons f F ih =>
    intro a t h ht
    obtain ⟨b, h1, h2, h3, h4⟩ := ih { a with flag := fun m => if m = f then true else a.flag m } t
      (fun g hg => h g (List.mem_cons_of_mem _ hg)) ht
    refine ⟨b, ?_, h2, h3, fun n => ?_⟩
    · rw [List.map_cons, List.cons_append, loop_flag (find_flag (h f (List.mem_cons_self ..))), h1]
      cases F with
      | nil => exact ht
      | cons g F => trivial
    · rw [h4, List.mem_cons]
      by_cases hn : n = f
      · simp [hn]
      · simp [hn]

/-! ## C110 -/

/-- C110: an option list with an error (an unknown name, a missing or wrong value) leaves every option as it was. -/
theorem c110_error_unchanged (o : Opts) (op : Op) (h : ∀ l, (step o op).1 ≠ .ok l) : (step o op).2 = o := by
  have key : ∀ args, (∀ l, (interface o args).1 ≠ .ok l) → (interface o args).2 = o := by
    intro args h
    unfold interface at h ⊢
    split
    · rfl
    · rename_i hne
      rw [if_neg hne] at h
      unfold change at h ⊢
      generalize changeLoop { o with flag := fun _ => false } args = r at h ⊢
      cases r with
      | ok o' => exact absurd rfl (h (setting o'))
      | _ => rfl
  cases op <;> exact key _ h

/-- C110: what `(debug-options-interface)` returns can be given back later to restore the options, whatever happened in between. -/
theorem c110_restore (o now : Opts) (hp : Plain o) :
    ∃ o', interface now (setting o) = (.ok (setting o'), o') ∧ (∀ n, IsFlag n → o'.flag n = o.flag n) ∧ (∀ n, IsInt n → o'.int n = o.int n) ∧
      o'.file = o.file := by
  have e := loop_setting hp { now with flag := fun _ => false } (t := []) trivial
  rw [List.append_nil] at e
  refine ⟨applied o { now with flag := fun _ => false }, interface_ok (by simpa using setting_ne o []) (by rw [e]; rfl), fun n hn => ?_, fun n hn => applied_int _ _ hn,
    applied_file _ _⟩
  have := applied_flag o { now with flag := fun _ => false } n
  simp only [Bool.false_eq_true, false_or, hn, true_and] at this
  exact Bool.eq_iff_iff.2 this

/-- C110: `(debug-enable 'f …)` switches exactly the named flags on and changes nothing else. -/
theorem c110_enable (o : Opts) (F : List String) (hF : ∀ f ∈ F, IsFlag f) (hp : Plain o) :
    ∃ o', debugEnable o (F.map .sym) = (.ok (setting o'), o') ∧ (∀ n, IsFlag n → (o'.flag n = true ↔ o.flag n = true ∨ n ∈ F)) ∧
      (∀ n, IsInt n → o'.int n = o.int n) ∧ o'.file = o.file := by
  obtain ⟨b, h1, h2, h3, h4⟩ := loop_flags F { o with flag := fun _ => false } (setting o) hF (noFalse_setting o)
  have e := loop_setting hp b (t := []) trivial
  rw [List.append_nil] at e
  refine ⟨applied o b, interface_ok ?_ (by rw [h1, e]; rfl), fun n hn => ?_, fun n hn => applied_int _ _ hn, applied_file _ _⟩
  · intro h
    exact setting_ne o [] (by simpa using (List.append_eq_nil_iff.1 h).2)
  · rw [applied_flag, h4]
    simp only [Bool.false_eq_true, false_or, hn, true_and]
    exact Or.comm

/-- C110: `(debug-disable 'f …)` switches exactly the named flags off and changes nothing else.  Partial: the value of `show-file-name` must
not be one of the named symbols, and the names must be names of flags: a named integer option is not affected, see
`c110_disable_counterexample`. -/
theorem c110_disable_partial (o : Opts) (F : List String) (hF : ∀ f ∈ F, IsFlag f) (hp : Plain o) (hv : ∀ f ∈ F, o.file ≠ .sym f) :
    ∃ o', debugDisable o (F.map .sym) = (.ok (setting o'), o') ∧ (∀ n, IsFlag n → (o'.flag n = true ↔ o.flag n = true ∧ n ∉ F)) ∧
      (∀ n, IsInt n → o'.int n = o.int n) ∧ o'.file = o.file := by
  let o2 : Opts := { o with flag := fun n => o.flag n && !F.contains n }
  have hsym : ∀ n, (F.map Arg.sym).contains (.sym n) = F.contains n := by
    intro n
    rw [Bool.eq_iff_iff]
    simp
  have hfil : (setting o).filter (fun x => !(F.map Arg.sym).contains x) = setting o2 := by
    have : ∀ (L : List (String × Ty)), (∀ p ∈ L, p ∈ table) →
        (L.flatMap (item o)).filter (fun x => !(F.map Arg.sym).contains x) = L.flatMap (item o2) := by
      intro L
      induction L with
      | nil => intro _; rfl
      | cons p L ih =>
        intro h
        rw [List.flatMap_cons, List.flatMap_cons, List.filter_append, ih fun q hq => h q (List.mem_cons_of_mem _ hq)]
        congr 1
        obtain ⟨n, ty⟩ := p
        have hmem := h _ (List.mem_cons_self ..)
        cases ty with
        | boolean =>
          simp only [item, o2]
          by_cases hb : o.flag n = true
          · simp only [hb, if_true, List.filter_cons, hsym, List.filter_nil, Bool.true_and]
          · simp [hb]
        | integer =>
          have hn : F.contains n = false := by
            rw [Bool.eq_false_iff]
            intro hc
            exact flag_not_int (hF n (by simpa using hc)) hmem
          simp only [item, o2, List.filter_cons, hsym, hn]
          simp
        | scm =>
          have hn : F.contains n = false := by
            rw [Bool.eq_false_iff]
            intro hc
            have := (find_flag (hF n (by simpa using hc))).symm.trans (find_table _ hmem)
            cases this
          have hfile : (F.map Arg.sym).contains o.file = false := by
            rw [Bool.eq_false_iff]
            intro hc
            obtain ⟨f, hf, e⟩ : ∃ f ∈ F, Arg.sym f = o.file := by simpa using hc
            exact hv f hf e.symm
          simp only [item, o2, List.filter_cons, hsym, hn, hfile]
          simp
    exact this _ fun _ h => List.mem_reverse.1 h
  obtain ⟨o', h1, h2, h3, h4⟩ := c110_restore o2 o hp
  refine ⟨o', ?_, fun n hn => ?_, h3, h4⟩
  · rw [debugDisable, hfil, h1]
  · rw [h2 n hn]
    simp [o2]

/-- C110: `(debug-set! opt n)` for an integer option gives it the value and changes nothing else. -/
theorem c110_set_int (o : Opts) (opt : String) (v : Int) (h : IsInt opt) (hp : Plain o) :
    ∃ o', debugSet o opt (.num v) = (.ok (setting o'), o') ∧ o'.int opt = v ∧ (∀ n, IsFlag n → o'.flag n = o.flag n) ∧
      (∀ n, IsInt n → n ≠ opt → o'.int n = o.int n) ∧ o'.file = o.file := by
  let a := applied o { o with flag := fun _ => false }
  refine ⟨{ a with int := fun m => if m = opt then v else a.int m }, interface_ok (setting_ne _ _) ?_, by simp, fun n hn => ?_, fun n hn hne => ?_,
    applied_file _ _⟩
  · rw [loop_setting hp _ (by trivial), changeLoop]
    · simp only [extractSymbol, find_int h]
      rfl
    · intro b e; cases e
  · have := applied_flag o { o with flag := fun _ => false } n
    simp only [Bool.false_eq_true, false_or, hn, true_and] at this
    exact Bool.eq_iff_iff.2 this
  · simp only [if_neg hne]
    exact applied_int _ _ hn

/-- C110: `(debug-set! show-file-name v)` gives it the value and changes nothing else. -/
theorem c110_set_file (o : Opts) (v : Arg) (hv : ∀ x, v ≠ .quote x) (hp : Plain o) :
    ∃ o', debugSet o "show-file-name" v = (.ok (setting o'), o') ∧ o'.file = v ∧ (∀ n, IsFlag n → o'.flag n = o.flag n) ∧
      (∀ n, IsInt n → o'.int n = o.int n) := by
  let a := applied o { o with flag := fun _ => false }
  refine ⟨{ a with file := v }, interface_ok (setting_ne _ _) ?_, rfl, fun n hn => ?_, fun n hn => applied_int _ _ hn⟩
  · rw [loop_setting hp _ (by trivial), changeLoop]
    · have hf : find "show-file-name" = some .scm := by decide +kernel
      have hov : optionValue v = v := by unfold optionValue; split; exact absurd rfl (hv _); rfl
      simp only [extractSymbol, hf, hov]
      rfl
    · intro b e; cases e
  · have := applied_flag o { o with flag := fun _ => false } n
    simp only [Bool.false_eq_true, false_or, hn, true_and] at this
    exact Bool.eq_iff_iff.2 this

/-- C110: the options are these, each name stands for one option only, and `debug-options` lists every option with a number and its value. -/
theorem c110_names : (∀ n, IsFlag n ↔ n ∈ ["cheap", "breakpoints", "trace", "procnames", "backwards", "backtrace", "debug", "warn-deprecated"]) ∧
    (∀ n, IsInt n ↔ n ∈ ["width", "indent", "frames", "maxdepth", "depth", "stack"]) ∧ (table.map (·.1)).Nodup ∧
    (∀ o n, IsInt n → ∃ a b, setting o = a ++ [.sym n, .num (o.int n)] ++ b) := by
  refine ⟨fun n => ?_, fun n => ?_, by decide +kernel, fun o n h => ?_⟩
  · simp [IsFlag, table]
  · simp [IsInt, table]
  · have h' : (n, Ty.integer) ∈ table.reverse := by simpa [IsInt] using h
    obtain ⟨a, b, e⟩ := List.append_of_mem h'
    refine ⟨a.flatMap (item o), b.flatMap (item o), ?_⟩
    rw [setting, e]
    simp [item]

/-- C110 (violation): `(debug-set! procnames #f)` does not switch the option off. -/
theorem c110_set_counterexample : ∃ l o, debugSet defaults "procnames" (.bool false) = (.ok l, o) ∧ o.flag "procnames" = true :=
  ⟨_, _, rfl, by decide +kernel⟩

/-- C110: disabling an integer option is accepted without effect; disabling `show-file-name` when its value is a symbol is an error. -/
theorem c110_disable_counterexample : (∃ l o, debugDisable defaults [.sym "width"] = (.ok l, o) ∧ o.int "width" = 79) ∧
    (debugDisable { defaults with file := .sym "base" } [.sym "show-file-name"]).1 = .err .evalError :=
  ⟨⟨_, _, rfl, by decide +kernel⟩, by decide +kernel⟩

/-- The hypotheses are met by the options at the start and by concrete calls. -/
example : Plain defaults ∧ IsFlag "backtrace" ∧ IsInt "width" ∧ (∀ l, (step defaults (.set "nonsense" (.num 1))).1 ≠ .ok l) :=
  ⟨fun x h => (by cases h), by decide +kernel, by decide +kernel, fun l h => by
    have : (step defaults (.set "nonsense" (.num 1))).1 = .err .evalError := by decide +kernel
    rw [this] at h
    cases h⟩

end Pscm.Dbg
