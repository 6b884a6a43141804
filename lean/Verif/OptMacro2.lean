import Verif.OptMacro
/-! # The option macros of the initial state: what their arguments mean -/
namespace Pscm.Ref
open Pscm.Ev hiding Name Form evalForm

/-- A constant or a quoted symbol. -/
inductive Lit
  | const (c : Const)
  | sym (x : Name)

def Lit.exp : Lit → Exp
  | .const c => .const c
  | .sym x => .quote (.sym x)

def Lit.datum : Lit → Datum
  | .const (.bool b) => .bool b
  | .const (.num n) => .num n
  | .const (.chr c) => .chr c
  | .const (.str s) => .str s
  | .sym x => .sym x

/-- `(append (f) (list 'opt val))` -/
def setArg (f opt : Name) (v : Lit) : Exp :=
  .app (.var "append") [.app (.var f) [], .app (.var "list") [.quote (.sym opt), v.exp]]

/-- `(append (list flag ...) (f))` -/
def enableArg (f : Name) (vs : List Lit) : Exp :=
  .app (.var "append") [.app (.var "list") (vs.map Lit.exp), .app (.var f) []]

/-- The body of the loop of `read-disable`. -/
def filterBody : Exp :=
  .cond
    [.app (.var "null?") [.var "remaining"],
     .and [.app (.var "pair?") [.var "remaining"], .app (.var "memq") [.app (.var "car") [.var "remaining"], .var "flags-to-remove"]],
     .app (.var "pair?") [.var "remaining"]]
    [[.app (.var "reverse") [.var "result"]],
     [.app (.var "filter-options") [.app (.var "cdr") [.var "remaining"], .var "result"]],
     [.app (.var "filter-options") [.app (.var "cdr") [.var "remaining"], .app (.var "cons") [.app (.var "car") [.var "remaining"], .var "result"]]]]
    [.var "result"]

/-- `(let ((options (f)) (flags-to-remove (list 'flag ...))) (let filter-options (...) ...))` -/
def disableArg (f : Name) (xs : List Name) : Exp :=
  .let_ ["options", "flags-to-remove"] [.app (.var f) [], .app (.var "list") (xs.map fun x => .quote (.sym x))]
    [.namedLet "filter-options" ["remaining", "result"] [.var "options", .quote .nil] filterBody]

/-- The builtins the macros use. -/
def neededNames : List Name := ["append", "list", "null?", "reverse", "pair?", "memq", "car", "cdr", "cons"] ++ optionNames

/-- The global variables hold them. -/
def Needs (G : List (Name × Val)) : Prop := ∀ x ∈ neededNames, G.lookup x = some (.prim x)

variable {f : Name} {os : List Datum} {st : Store} {ρ : Env} {O : List Event}

theorem elems_list (vs : List Val) : (Val.list vs).elems = some vs := by
  induction vs with
  | nil => rfl
  | cons v vs ih => simp [Val.list, Val.elems, ih]

theorem opt_std (hf : f ∈ optionNames) {x : Name} (hx : x ∈ stdNames) (vs : List Val) :
    (withOptions f os).dom x = true ∧ (withOptions f os).ap x vs = stdAp x vs := by
  have : ∀ y ∈ optionNames, y ∉ stdNames := by decide
  have hne : x ≠ f := by rintro rfl; exact this _ hf hx
  simp [withOptions, hne, standard, hx]

/-- A call of a standard builtin. -/
theorem opt_call (hf : f ∈ optionNames) {x : Name} (hx : x ∈ stdNames) (hl : look ρ st x = some (.prim x)) {args : List Exp} {vs : List Val} {v : Val} {st1 : Store}
    (ha : ListTo (withOptions f os) ρ args st vs st1) (hv : stdAp x vs = .val v) : EvalsTo (withOptions f os) ρ (.app (.var x) args) st v st1 :=
  .prim hl (opt_std hf hx vs).1 ha (by rw [(opt_std hf hx vs).2, hv])

/-- `(f)` -/
theorem opt_setting (hl : look ρ st f = some (.prim f)) :
    EvalsTo (withOptions f os) ρ (.app (.var f) []) st (Val.list (os.map Datum.toVal)) st :=
  .prim hl (by simp [withOptions]) .nil (by simp [withOptions])

theorem lit_to {B : Builtins} (v : Lit) : EvalsTo B ρ v.exp st v.datum.toVal st := by
  cases v with
  | const c => cases c <;> exact .const _
  | sym x => exact .quote _

theorem lits_to {B : Builtins} (vs : List Lit) : ListTo B ρ (vs.map Lit.exp) st (vs.map fun v => v.datum.toVal) st := by
  induction vs with
  | nil => exact .nil
  | cons v vs ih => exact .cons (lit_to v) ih

theorem syms_to {B : Builtins} (xs : List Name) : ListTo B ρ (xs.map fun x => .quote (.sym x)) st (xs.map Val.sym) st := by
  induction xs with
  | nil => exact .nil
  | cons v vs ih => exact .cons (.quote (.sym v)) ih

theorem ap_append (as bs : List Val) : stdAp "append" [Val.list as, Val.list bs] = .val (Val.list (as ++ bs)) := by
  simp [stdAp, allElems, elems_list]

theorem need_top (hG : Needs st.globals) {x : Name} (hx : x ∈ neededNames) : look [] st x = some (.prim x) := hG x hx

theorem set_means (hf : f ∈ optionNames) (hG : Needs st.globals) (opt : Name) (v : Lit) :
    EvalsTo (withOptions f os) [] (setArg f opt v) st (Val.list ((os ++ [.sym opt, v.datum]).map Datum.toVal)) st := by
  rw [List.map_append]
  have h1 : EvalsTo (withOptions f os) [] (.app (.var f) []) st (Val.list (os.map Datum.toVal)) st :=
    opt_setting (need_top hG (List.mem_append_right _ hf))
  have h2 : EvalsTo (withOptions f os) [] (.app (.var "list") [.quote (.sym opt), v.exp]) st (Val.list [.sym opt, v.datum.toVal]) st :=
    opt_call hf (by decide) (need_top hG (by decide)) (.cons (.quote _) (.cons (lit_to v) .nil)) rfl
  exact opt_call hf (by decide) (need_top hG (by decide)) (.cons h1 (.cons h2 .nil)) (ap_append _ _)

theorem enable_means (hf : f ∈ optionNames) (hG : Needs st.globals) (vs : List Lit) :
    EvalsTo (withOptions f os) [] (enableArg f vs) st (Val.list ((vs.map Lit.datum ++ os).map Datum.toVal)) st := by
  rw [List.map_append, List.map_map]
  have h1 : EvalsTo (withOptions f os) [] (.app (.var f) []) st (Val.list (os.map Datum.toVal)) st :=
    opt_setting (need_top hG (List.mem_append_right _ hf))
  have h2 : EvalsTo (withOptions f os) [] (.app (.var "list") (vs.map Lit.exp)) st (Val.list (vs.map fun v => v.datum.toVal)) st :=
    opt_call hf (by decide) (need_top hG (by decide)) (lits_to vs) rfl
  exact opt_call hf (by decide) (need_top hG (by decide)) (.cons h2 (.cons h1 .nil)) (ap_append _ _)

/-! ## The loop of `read-disable` -/

/-- The flag is not to be removed. -/
def stays (xs : List Name) (d : Datum) : Bool := !(xs.map Datum.sym).contains d

theorem key_datum (d : Datum) : d.toVal.key = some d ∨ (d.toVal.key = none ∧ ∀ x, d ≠ .sym x) := by
  cases d <;> simp [Datum.toVal, Val.key]

theorem memq_flags (d : Datum) (xs : List Name) :
    ∃ u, firstTail (sameKey d.toVal) (xs.map Val.sym) = .val u ∧ u.isTrue = !stays xs d := by
  induction xs with
  | nil => exact ⟨.bool false, rfl, rfl⟩
  | cons x xs ih =>
    have hk : sameKey d.toVal (.sym x) = some (decide (d = .sym x)) := by
      have hs : (Val.sym x).key = some (.sym x) := rfl
      unfold sameKey
      rcases key_datum d with h | ⟨h, hne⟩
      · simp only [h, hs]
      · simp only [h, hs, decide_eq_false (hne x)]
    by_cases hx : d = .sym x
    · refine ⟨Val.list (.sym x :: xs.map Val.sym), ?_, ?_⟩
      · rw [decide_eq_true hx] at hk
        simp only [List.map_cons, firstTail, hk]
      · simp [stays, hx, Val.list, Val.isTrue]
    · obtain ⟨u, h1, h2⟩ := ih
      refine ⟨u, ?_, ?_⟩
      · rw [decide_eq_false hx] at hk
        simp only [List.map_cons, firstTail, hk, h1]
      · rw [h2]
        simp [stays, hx]

/-- The loop, as a procedure. -/
def filterLoop (l0 l1 l2 : Nat) : Val :=
  .clo ["remaining", "result"] none [filterBody] [("filter-options", l2), ("options", l0), ("flags-to-remove", l1)]

theorem filter_loop (hf : f ∈ optionNames) {G : List (Name × Val)} (hG : Needs G) (xs : List Name) (l0 l1 l2 : Nat) (opts : List Datum) :
    ∀ (ds acc : List Datum) (cells : List Val), cells[l1]? = some (Val.list (xs.map Val.sym)) → cells[l2]? = some (filterLoop l0 l1 l2) →
    ∃ cells', ApplyTo (withOptions f opts) (filterLoop l0 l1 l2) [Val.list (ds.map Datum.toVal), Val.list (acc.map Datum.toVal)] ⟨cells, G, O⟩
      (Val.list ((acc.reverse ++ ds.filter (stays xs)).map Datum.toVal)) ⟨cells', G, O⟩ := by
  intro ds
  induction ds with
  | nil =>
    intro acc cells h1 h2
    let cs := cells ++ [Val.list [], Val.list (acc.map Datum.toVal)]
    let ρ : Env := [("remaining", cells.length), ("result", cells.length + 1), ("filter-options", l2), ("options", l0), ("flags-to-remove", l1)]
    have hrem : look ρ ⟨cs, G, O⟩ "remaining" = some .nil := by simp [look, ρ, cs, List.lookup, Val.list]
    have hres : look ρ ⟨cs, G, O⟩ "result" = some (Val.list (acc.map Datum.toVal)) := by simp [look, ρ, cs, List.lookup]
    have hg : ∀ x ∈ neededNames, look ρ ⟨cs, G, O⟩ x = some (.prim x) := by
      intro x hx
      have : ρ.lookup x = none := by
        simp only [neededNames, optionNames, List.cons_append, List.nil_append, List.mem_cons, List.not_mem_nil, or_false] at hx
        rcases hx with rfl | rfl | rfl | rfl | rfl | rfl | rfl | rfl | rfl | rfl | rfl <;> rfl
      simp only [look, this]
      exact hG x hx
    refine ⟨cs, .clo (by simp) (.one (.cond (.yes (w := .bool true) (st1 := ⟨cs, G, O⟩) ?_ rfl (.one ?_))))⟩
    · exact opt_call hf (by decide) (hg _ (by decide)) (.cons (.var hrem (by simp) (by simp)) .nil) rfl
    · refine opt_call hf (by decide) (hg _ (by decide)) (.cons (.var hres ?_ ?_) .nil) ?_
      · cases acc <;> simp [Val.list]
      · cases acc <;> simp [Val.list]
      · simp [stdAp, unary, elems_list]
  | cons d ds ih =>
    intro acc cells h1 h2
    let cs := cells ++ [Val.list ((d :: ds).map Datum.toVal), Val.list (acc.map Datum.toVal)]
    let ρ : Env := [("remaining", cells.length), ("result", cells.length + 1), ("filter-options", l2), ("options", l0), ("flags-to-remove", l1)]
    have hlt1 : l1 < cells.length := (List.getElem?_eq_some_iff.1 h1).1
    have hlt2 : l2 < cells.length := (List.getElem?_eq_some_iff.1 h2).1
    have k1 : cs[l1]? = some (Val.list (xs.map Val.sym)) := by rw [List.getElem?_append_left hlt1, h1]
    have k2 : cs[l2]? = some (filterLoop l0 l1 l2) := by rw [List.getElem?_append_left hlt2, h2]
    have hrem : look ρ ⟨cs, G, O⟩ "remaining" = some (.pair d.toVal (Val.list (ds.map Datum.toVal))) := by simp [look, ρ, cs, List.lookup, Val.list]
    have hres : look ρ ⟨cs, G, O⟩ "result" = some (Val.list (acc.map Datum.toVal)) := by simp [look, ρ, cs, List.lookup]
    have hfl : look ρ ⟨cs, G, O⟩ "flags-to-remove" = some (Val.list (xs.map Val.sym)) := by simp [look, ρ, List.lookup, k1]
    have hlo : look ρ ⟨cs, G, O⟩ "filter-options" = some (filterLoop l0 l1 l2) := by simp [look, ρ, List.lookup, k2]
    have hg : ∀ x ∈ neededNames, look ρ ⟨cs, G, O⟩ x = some (.prim x) := by
      intro x hx
      have : ρ.lookup x = none := by
        simp only [neededNames, optionNames, List.cons_append, List.nil_append, List.mem_cons, List.not_mem_nil, or_false] at hx
        rcases hx with rfl | rfl | rfl | rfl | rfl | rfl | rfl | rfl | rfl | rfl | rfl <;> rfl
      simp only [look, this]
      exact hG x hx
    have vrem : EvalsTo (withOptions f opts) ρ (.var "remaining") ⟨cs, G, O⟩ (.pair d.toVal (Val.list (ds.map Datum.toVal))) ⟨cs, G, O⟩ :=
      .var hrem (by simp) (by simp)
    have vres : EvalsTo (withOptions f opts) ρ (.var "result") ⟨cs, G, O⟩ (Val.list (acc.map Datum.toVal)) ⟨cs, G, O⟩ :=
      .var hres (by cases acc <;> simp [Val.list]) (by cases acc <;> simp [Val.list])
    have vcar : EvalsTo (withOptions f opts) ρ (.app (.var "car") [.var "remaining"]) ⟨cs, G, O⟩ d.toVal ⟨cs, G, O⟩ :=
      opt_call hf (by decide) (hg _ (by decide)) (.cons vrem .nil) rfl
    have vcdr : EvalsTo (withOptions f opts) ρ (.app (.var "cdr") [.var "remaining"]) ⟨cs, G, O⟩ (Val.list (ds.map Datum.toVal)) ⟨cs, G, O⟩ :=
      opt_call hf (by decide) (hg _ (by decide)) (.cons vrem .nil) rfl
    have vpair : EvalsTo (withOptions f opts) ρ (.app (.var "pair?") [.var "remaining"]) ⟨cs, G, O⟩ (.bool true) ⟨cs, G, O⟩ :=
      opt_call hf (by decide) (hg _ (by decide)) (.cons vrem .nil) rfl
    have vnull : EvalsTo (withOptions f opts) ρ (.app (.var "null?") [.var "remaining"]) ⟨cs, G, O⟩ (.bool false) ⟨cs, G, O⟩ :=
      opt_call hf (by decide) (hg _ (by decide)) (.cons vrem .nil) rfl
    have vfl : EvalsTo (withOptions f opts) ρ (.var "flags-to-remove") ⟨cs, G, O⟩ (Val.list (xs.map Val.sym)) ⟨cs, G, O⟩ :=
      .var hfl (by cases xs <;> simp [Val.list]) (by cases xs <;> simp [Val.list])
    have vlo : EvalsTo (withOptions f opts) ρ (.var "filter-options") ⟨cs, G, O⟩ (filterLoop l0 l1 l2) ⟨cs, G, O⟩ :=
      .var hlo (by simp [filterLoop]) (by simp [filterLoop])
    obtain ⟨u, hu, ht⟩ := memq_flags d xs
    have vmem : EvalsTo (withOptions f opts) ρ (.app (.var "memq") [.app (.var "car") [.var "remaining"], .var "flags-to-remove"]) ⟨cs, G, O⟩ u ⟨cs, G, O⟩ :=
      opt_call hf (by decide) (hg _ (by decide)) (.cons vcar (.cons vfl .nil)) (by simp [stdAp, binary, elems_list, hu])
    cases hs : stays xs d with
    | false =>
      obtain ⟨cells', h⟩ := ih acc cs k1 k2
      refine ⟨cells', .clo (by simp) (.one (.cond (.no vnull rfl (.yes (w := u) (.and (.next vpair rfl (.one vmem))) (by rw [ht, hs]; rfl) (.one ?_)))))⟩
      rw [List.filter_cons_of_neg (by simp [hs])]
      exact .app vlo rfl (.cons vcdr (.cons vres .nil)) h
    | true =>
      obtain ⟨cells', h⟩ := ih (d :: acc) cs k1 k2
      refine ⟨cells', .clo (by simp) (.one (.cond (.no vnull rfl (.no (w := u) (.and (.next vpair rfl (.one vmem))) (by rw [ht, hs]; rfl) (.yes vpair rfl (.one ?_))))))⟩
      rw [List.filter_cons_of_pos hs]
      have hc : EvalsTo (withOptions f opts) ρ (.app (.var "cons") [.app (.var "car") [.var "remaining"], .var "result"]) ⟨cs, G, O⟩
          (Val.list ((d :: acc).map Datum.toVal)) ⟨cs, G, O⟩ :=
        opt_call hf (by decide) (hg _ (by decide)) (.cons vcar (.cons vres .nil)) rfl
      have := EvalsTo.app vlo rfl (.cons vcdr (.cons hc .nil)) h
      rw [List.reverse_cons, List.append_assoc, List.singleton_append] at this
      exact this

theorem disable_means (hf : f ∈ optionNames) (hG : Needs st.globals) (xs : List Name) :
    ∃ cells', EvalsTo (withOptions f os) [] (disableArg f xs) st (Val.list ((os.filter (stays xs)).map Datum.toVal)) ⟨cells', st.globals, st.out⟩ := by
  let k := st.cells.length
  let cs := st.cells ++ [Val.list (os.map Datum.toVal), Val.list (xs.map Val.sym)]
  have hlen : cs.length = k + 2 := by simp [cs, k]
  obtain ⟨cells', h⟩ := filter_loop (O := st.out) hf hG xs k (k + 1) (k + 2) os os [] (cs ++ [filterLoop k (k + 1) (k + 2)])
    (by rw [List.getElem?_append_left (by omega)]; simp [cs, k]) (by rw [← hlen]; simp)
  refine ⟨cells', .let (vs := [Val.list (os.map Datum.toVal), Val.list (xs.map Val.sym)]) (st1 := st) ?_ rfl (.one ?_)⟩
  · refine .cons (opt_setting (need_top hG (List.mem_append_right _ hf))) (.cons (opt_call hf (by decide) (need_top hG (by decide)) (syms_to xs) rfl) .nil)
  · have henter : enter ["options", "flags-to-remove"] [Val.list (os.map Datum.toVal), Val.list (xs.map Val.sym)]
        [.namedLet "filter-options" ["remaining", "result"] [.var "options", .quote .nil] filterBody] [] st =
        ([("options", k), ("flags-to-remove", k + 1)], ⟨cs, st.globals, st.out⟩) := rfl
    rw [henter]
    refine .namedLet (st1 := ⟨cs, st.globals, st.out⟩) (vs := [Val.list (os.map Datum.toVal), Val.list []]) ?_ ?_
    · refine .cons (.var ?_ ?_ ?_) (.cons (.quote _) .nil)
      · simp [look, List.lookup, cs, k]
      · cases os <;> simp [Val.list]
      · cases os <;> simp [Val.list]
    · simp only [hlen]
      exact h

end Pscm.Ref
