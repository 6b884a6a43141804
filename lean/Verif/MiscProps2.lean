import Verif.MiscProps

/-!
Property theorems for C83 (reader options), continued: what `(read-set! keywords v)` does.
-/

namespace Pscm.Misc

/-- What `v` means as the value of the option `keywords`: `#f` switches it off, a quotation `'x` means `x`. -/
def KeywordValue : Arg → Option Arg → Prop
  | .bool false, k => k = none
  | .quote (.bool false), k => k = none
  | .quote x, k => k = some x
  | x, k => k = some x

/-- `(read-set! keywords v)` gives the option the value `v` and leaves every other option as it was. -/
theorem c83_set_keywords (o : Opts) (v : Arg) (hk : PlainKeywords o) (hc : o.copy = true → o.positions = true) :
    ∃ o', readSet o "keywords" v = (.ok (setting o'), o') ∧ KeywordValue v o'.keywords ∧
      o'.copy = o.copy ∧ o'.positions = o.positions ∧ o'.caseInsensitive = o.caseInsensitive := by
  have hv : KeywordValue v (optionValue v) := by
    cases v with
    | bool b => cases b <;> rfl
    | quote y => cases y with
      | bool b => cases b <;> rfl
      | _ => rfl
    | _ => rfl
  have e : changeLoop ⟨false, false, false, o.keywords⟩ (setting o ++ [.sym "keywords", v]) =
      .ok ((flagsOn o).foldl Flag.on ⟨false, false, false, optionValue v⟩) := by
    rw [setting_eq, List.cons_append, List.cons_append, loop_keywords, plain_value hk,
      loop_flags _ _ _ (by intro r hh; cases hh), loop_keywords, changeLoop]
    cases o with
    | mk c p i k => cases c <;> cases p <;> cases i <;> rfl
  obtain ⟨o', h1, h2⟩ := interface_flags o _ _ _ (by rw [setting_eq]; simp) e
  have hfl : ∀ f, (flagsOn o).contains f = f.get o := by
    intro f
    cases o with
    | mk c p i k => cases c <;> cases p <;> cases i <;> cases f <;> rfl
  unfold Flags at h2
  simp only [hfl] at h2
  obtain ⟨a, b, c, d⟩ := h2
  refine ⟨o', h1, d ▸ hv, a, ?_, c⟩
  rw [b]
  show (o.positions || o.copy) = o.positions
  cases hcc : o.copy with
  | false => simp
  | true => simp [hc hcc]

/-- From the defaults, `(read-set! keywords 'prefix)`, then `(read-set! keywords #f)`. -/
example : PlainKeywords defaults ∧ (defaults.copy = true → defaults.positions = true) ∧
    (readSet defaults "keywords" (.quote (.sym "prefix"))).2.keywords = some (.sym "prefix") ∧
    (readSet (readSet defaults "keywords" (.quote (.sym "prefix"))).2 "keywords" (.bool false)).2 = defaults ∧
    (optAfter [.disable [.sym "positions"], .set "keywords" (.quote (.sym "prefix")), .enable [.sym "copy"]]) =
      ⟨true, true, false, some (.sym "prefix")⟩ := by
  refine ⟨(fun x h => by cases h), by decide, by decide +kernel, by decide +kernel, by decide +kernel⟩

end Pscm.Misc
