import Verif.OptMacro2
/-! # The option macros of the initial state: their expansions -/
namespace Pscm.Ref
open Pscm.Ev hiding Name Form evalForm
variable {σ : Type} {P : Prims σ} {S : St σ} {n : Nat}

/-- The names of a family of option macros, and the builtin they call. -/
structure Family where
  set : Name
  enable : Name
  disable : Name
  builtin : Name

def readFamily : Family := ⟨"read-set!", "read-enable", "read-disable", "read-options-interface"⟩
def debugFamily : Family := ⟨"debug-set!", "debug-enable", "debug-disable", "debug-options-interface"⟩

/-- The list does not begin a quasiquotation form. -/
def ordinaryB : V → Bool
  | .sym x => decide (x ≠ "unquote") && decide (x ≠ "quasiquote")
  | .pair (.sym x) _ => decide (x ≠ "unquote-splicing")
  | _ => true

def plainB : V → Bool
  | .pair a d => ordinaryB a && plainB a && plainB d
  | .vec _ => false
  | _ => true

theorem ordinary_of {a : V} (h : ordinaryB a = true) : Pscm.Ev.Ordinary a := by
  refine ⟨?_, ?_, ?_⟩
  · rintro rfl; cases h
  · rintro rfl; cases h
  · rintro r rfl; cases h

/-- The template evaluates to this, in this state. -/
def Gives (P : Prims σ) (n : Nat) (S : St σ) (t t' : V) : Prop := quasi (run P) n t 1 S = some (.ok t', S)

theorem Gives.pair {a d a' d' : V} (ho : ordinaryB a = true) (ha : Gives P n S a a') (hd : Gives P n S d d') : Gives P n S (.pair a d) (.pair a' d') := by
  unfold Gives at *
  rw [quasi_pair (ordinary_of ho), bind_apply, ha]
  simp only [bind_apply, hd]
  rfl

theorem Gives.plain {t : V} (h : plainB t = true) : Gives P n S t t := by
  induction t with
  | pair a d iha ihd =>
    simp only [plainB, Bool.and_eq_true] at h
    exact .pair h.1.1 (iha h.1.2) (ihd h.2)
  | vec e => cases h
  | _ => rfl

theorem Gives.unquote {e v : V} (h : run P (.eval n e) S = some (.ok v, S)) : Gives P n S (unq e) v := by
  unfold Gives
  rw [quasi_unq]
  exact h

theorem Gives.splice {e : V} {vs : List V} (h : run P (.eval n e) S = some (.ok (listOf vs), S)) : Gives P n S (.pair (splice e) .nil) (listOf vs) := by
  have := fill_quasi (P := P) (Fill.splice (env := n) (e := e) (d := .nil) (vs := vs) (evals_iff.2 h) (.atom ⟨(by intro a d h; cases h), (by intro e h; cases h)⟩)) (by omega)
  have hv : vs.foldr V.pair .nil = listOf vs := by
    clear this h
    induction vs with
    | nil => rfl
    | cons v vs ih => simp [listOf, ih]
  simp only [mapOut, hv] at this
  exact this

/-! ## Three templates -/

/-- `(f (append (f) (list ',opt ,val)))` -/
def setT (f : Name) : V :=
  listOf [.sym f, listOf [.sym "append", listOf [.sym f], listOf [.sym "list", listOf [.sym "quote", unq (.sym "opt")], unq (.sym "val")]]]

/-- `(f (append (list ,@flags) (f)))` -/
def enableT (f : Name) : V :=
  listOf [.sym f, listOf [.sym "append", .pair (.sym "list") (.pair (splice (.sym "flags")) .nil), listOf [.sym f]]]

/-- `(f (let ((options (f)) (flags-to-remove (list ,@flags))) (let filter-options ...)))` -/
def disableT (f : Name) : V :=
  listOf [.sym f, listOf [.sym "let", listOf [listOf [.sym "options", listOf [.sym f]],
      listOf [.sym "flags-to-remove", .pair (.sym "list") (.pair (splice (.sym "flags")) .nil)]],
    (Exp.namedLet "filter-options" ["remaining", "result"] [.var "options", .quote .nil] filterBody).toV]]

theorem family_macros {fam : Family} (h : fam = readFamily ∨ fam = debugFamily) :
    (fam.set ∈ macroNames ∧ fam.enable ∈ macroNames ∧ fam.disable ∈ macroNames ∧ fam.builtin ∈ optionNames) ∧
    initMacros.lookup fam.set = some (macroOf ["opt", "val"] none [qq (setT fam.builtin)] 0) ∧
    initMacros.lookup fam.enable = some (macroOf [] (some "flags") [qq (enableT fam.builtin)] 0) ∧
    initMacros.lookup fam.disable = some (macroOf [] (some "flags") [qq (disableT fam.builtin)] 0) := by
  rcases h with rfl | rfl
  · exact ⟨by decide, by rfl, by rfl, by rfl⟩
  · exact ⟨by decide, by rfl, by rfl, by rfl⟩

theorem toVs_map {α : Type} (g : α → Exp) (xs : List α) : Exp.toVs (xs.map g) = xs.map fun x => (g x).toV := by
  induction xs with
  | nil => rfl
  | cons x xs ih => simp [Exp.toVs, ih]

theorem option_ordinary {f : Name} (hf : f ∈ optionNames) : ordinaryB (.sym f) = true := by
  have : ∀ y ∈ optionNames, ordinaryB (.sym y) = true := by decide
  exact this f hf

theorem option_ordinary' {f : Name} (hf : f ∈ optionNames) : ordinaryB (listOf [.sym f]) = true := by
  have : ∀ y ∈ optionNames, ordinaryB (listOf [.sym y]) = true := by decide
  exact this f hf

theorem set_gives {f : Name} (hf : f ∈ optionNames) {opt : Name} {v : Lit} (h1 : run P (.eval n (.sym "opt")) S = some (.ok (.sym opt), S))
    (h2 : run P (.eval n (.sym "val")) S = some (.ok v.exp.toV, S)) : Gives P n S (setT f) (listOf [.sym f, (setArg f opt v).toV]) := by
  have ho := option_ordinary hf
  have hs : Gives P n S (.sym f) (.sym f) := rfl
  have hn : Gives P n S .nil .nil := rfl
  have hff : Gives P n S (listOf [.sym f]) (listOf [.sym f]) := .pair ho hs hn
  exact .pair ho hs (.pair rfl (.pair rfl rfl (.pair (option_ordinary' hf) hff (.pair rfl (.pair rfl rfl (.pair rfl (.pair rfl rfl (.pair rfl (.unquote h1) hn))
    (.pair rfl (.unquote h2) hn))) hn))) hn)

theorem enable_gives {f : Name} (hf : f ∈ optionNames) {vs : List Lit} (h1 : run P (.eval n (.sym "flags")) S = some (.ok (listOf (vs.map fun v => v.exp.toV)), S)) :
    Gives P n S (enableT f) (listOf [.sym f, (enableArg f vs).toV]) := by
  have ho := option_ordinary hf
  have hs : Gives P n S (.sym f) (.sym f) := rfl
  have hn : Gives P n S .nil .nil := rfl
  have hff : Gives P n S (listOf [.sym f]) (listOf [.sym f]) := .pair ho hs hn
  have he : (enableArg f vs).toV = listOf [.sym "append", .pair (.sym "list") (listOf (vs.map fun v => v.exp.toV)), listOf [.sym f]] := by
    simp [enableArg, Exp.toV, Exp.toVs, toVs_map, listOf]
  rw [he]
  exact .pair ho hs (.pair rfl (.pair rfl rfl (.pair rfl (.pair rfl rfl (.splice h1)) (.pair (option_ordinary' hf) hff hn))) hn)

theorem disable_gives {f : Name} (hf : f ∈ optionNames) {xs : List Name}
    (h1 : run P (.eval n (.sym "flags")) S = some (.ok (listOf (xs.map fun x => listOf [.sym "quote", .sym x])), S)) :
    Gives P n S (disableT f) (listOf [.sym f, (disableArg f xs).toV]) := by
  have ho := option_ordinary hf
  have hs : Gives P n S (.sym f) (.sym f) := rfl
  have hn : Gives P n S .nil .nil := rfl
  have hff : Gives P n S (listOf [.sym f]) (listOf [.sym f]) := .pair ho hs hn
  have he : (disableArg f xs).toV = listOf [.sym "let", listOf [listOf [.sym "options", listOf [.sym f]],
      listOf [.sym "flags-to-remove", .pair (.sym "list") (listOf (xs.map fun x => listOf [.sym "quote", .sym x]))]],
      (Exp.namedLet "filter-options" ["remaining", "result"] [.var "options", .quote .nil] filterBody).toV] := by
    simp [disableArg, Exp.toV, Exp.toVs, toVs_map, listOf, bindings, Datum.toV]
  rw [he]
  have hpl : Gives P n S (Exp.namedLet "filter-options" ["remaining", "result"] [.var "options", .quote .nil] filterBody).toV
      (Exp.namedLet "filter-options" ["remaining", "result"] [.var "options", .quote .nil] filterBody).toV := .plain (by rfl)
  exact .pair ho hs (.pair rfl (.pair rfl rfl (.pair rfl (.pair rfl (.pair rfl rfl (.pair (option_ordinary' hf) hff hn))
    (.pair rfl (.pair rfl rfl (.pair rfl (.pair rfl rfl (.splice h1)) hn)) hn)) (.pair rfl hpl hn))) hn)

/-! ## The arguments are expressions of the sublanguage -/

theorem isVar_of {x : Name} (h : (!decide (x ∈ reserved) && decide (x.toList.head? ≠ some ':') && decide (x.toList.take 7 ≠ ['_', '_', 't', 'e', 'm', 'p', '_'])) = true) : IsVar x := by
  simp only [Bool.and_eq_true, decide_eq_true_eq, Bool.not_eq_true', decide_eq_false_iff_not] at h
  exact ⟨h.1.1, h.1.2, h.2⟩

theorem option_isVar {f : Name} (hf : f ∈ optionNames) : IsVar f := by
  simp only [optionNames, List.mem_cons, List.not_mem_nil, or_false] at hf
  rcases hf with rfl | rfl <;> exact isVar_of (by decide)

theorem lit_ok (v : Lit) : v.exp.Ok := by cases v <;> simp [Lit.exp, Exp.Ok]

theorem oks_map {α : Type} (g : α → Exp) (hg : ∀ x, (g x).Ok) (xs : List α) : Exp.Oks (xs.map g) := by
  induction xs with
  | nil => simp [Exp.Oks]
  | cons x xs ih => simp [Exp.Oks, hg x, ih]

theorem set_ok {f : Name} (hf : f ∈ optionNames) (opt : Name) (v : Lit) : (setArg f opt v).Ok := by
  have := lit_ok v
  have h1 : IsVar "append" := isVar_of (by decide)
  have h2 : IsVar "list" := isVar_of (by decide)
  simp [setArg, Exp.Ok, Exp.Oks, option_isVar hf, this, h1, h2]

theorem enable_ok {f : Name} (hf : f ∈ optionNames) (vs : List Lit) : (enableArg f vs).Ok := by
  have := oks_map Lit.exp lit_ok vs
  have h1 : IsVar "append" := isVar_of (by decide)
  have h2 : IsVar "list" := isVar_of (by decide)
  simp [enableArg, Exp.Ok, Exp.Oks, option_isVar hf, this, h1, h2]

theorem filterBody_ok : filterBody.Ok := by
  have h : ∀ x ∈ ["null?", "remaining", "pair?", "memq", "car", "flags-to-remove", "reverse", "result", "filter-options", "cdr", "cons"], IsVar x := by
    intro x hx
    simp only [List.mem_cons, List.not_mem_nil, or_false] at hx
    rcases hx with rfl | rfl | rfl | rfl | rfl | rfl | rfl | rfl | rfl | rfl | rfl <;> exact isVar_of (by decide)
  simp only [List.forall_mem_cons] at h
  obtain ⟨h1, h2, h3, h4, h5, h6, h7, h8, h9, h10, h11, _⟩ := h
  simp [filterBody, Exp.Ok, Exp.Oks, Exp.Okss, h1, h2, h3, h4, h5, h6, h7, h8, h9, h10, h11]

theorem disable_ok {f : Name} (hf : f ∈ optionNames) (xs : List Name) : (disableArg f xs).Ok := by
  have hq := oks_map (fun x : Name => Exp.quote (.sym x)) (fun x => by simp [Exp.Ok]) xs
  have h : ∀ x ∈ ["options", "flags-to-remove", "list", "filter-options", "remaining", "result"], IsVar x := by
    intro x hx
    simp only [List.mem_cons, List.not_mem_nil, or_false] at hx
    rcases hx with rfl | rfl | rfl | rfl | rfl | rfl <;> exact isVar_of (by decide)
  simp only [List.forall_mem_cons] at h
  obtain ⟨h1, h2, h3, h4, h5, h6, _⟩ := h
  simp [disableArg, Exp.Ok, Exp.Oks, Exp.BodyOk, defs, option_isVar hf, hq, h1, h2, h3, h4, h5, h6, filterBody_ok]

/-! ## No macro in operator position -/

theorem option_noMacro {f : Name} (hf : f ∈ optionNames) : f ∉ macroNames := by
  have : ∀ y ∈ optionNames, y ∉ macroNames := by decide
  exact this f hf

/-- The literal is not the name of one of the macros. -/
def Lit.Ok : Lit → Prop
  | .const _ => True
  | .sym x => x ∉ macroNames

theorem lit_noHead {v : Lit} (h : v.Ok) : noMacroHead v.exp.toV = true := by
  cases v with
  | const c => cases c <;> rfl
  | sym x =>
    have hx : x ∉ macroNames := h
    have hq : "quote" ∉ macroNames := by decide
    simp [Lit.exp, Exp.toV, Datum.toV, listOf, noMacroHead, hx, hq]

theorem lits_noHead {α : Type} {vs : List α} {g : α → V} (h : ∀ v ∈ vs, noMacroHead (g v) = true ∧ ∀ x, g v ≠ .sym x) :
    noMacroHead (listOf (vs.map g)) = true := by
  induction vs with
  | nil => rfl
  | cons v vs ih =>
    have hv := h v (.head _)
    simp only [List.map_cons, listOf, noMacroHead, Bool.and_eq_true]
    refine ⟨⟨?_, hv.1⟩, ih fun w hw => h w (.tail _ hw)⟩
    split
    · rename_i x e; exact absurd e (hv.2 x)
    · rfl

theorem lit_notSym (v : Lit) (x : Name) : v.exp.toV ≠ .sym x := by
  cases v with
  | const c => cases c <;> simp [Lit.exp, Exp.toV, Const.toV]
  | sym y => simp [Lit.exp, Exp.toV, listOf]

theorem noHead_pair {a d : V} (h1 : ∀ x, a = .sym x → x ∉ macroNames) (h2 : noMacroHead a = true) (h3 : noMacroHead d = true) : noMacroHead (.pair a d) = true := by
  simp only [noMacroHead, h2, h3, Bool.and_true]
  split
  · rename_i x; simpa using h1 x rfl
  · rfl

theorem noHead_sym {x : Name} {d : V} (h1 : x ∉ macroNames) (h3 : noMacroHead d = true) : noMacroHead (.pair (.sym x) d) = true :=
  noHead_pair (by rintro y e; cases e; exact h1) rfl h3

theorem noHead_other {a d : V} (h1 : ∀ x, a ≠ .sym x) (h2 : noMacroHead a = true) (h3 : noMacroHead d = true) : noMacroHead (.pair a d) = true :=
  noHead_pair (fun x e => absurd e (h1 x)) h2 h3

theorem set_noHead {f : Name} (hf : f ∈ optionNames) {opt : Name} {v : Lit} (ho : opt ∉ macroNames) (hv : v.Ok) :
    noMacroHead (listOf [.sym f, (setArg f opt v).toV]) = true := by
  have hfm := option_noMacro hf
  refine noHead_sym hfm (noHead_other ?_ (noHead_sym (by decide) (noHead_other ?_ (noHead_sym hfm rfl) (noHead_other ?_ (noHead_sym (by decide)
    (noHead_other ?_ (noHead_sym (by decide) (noHead_sym ho rfl)) (noHead_other (lit_notSym v) (lit_noHead hv) rfl))) rfl))) rfl)
  all_goals (intro x h; cases h)

theorem enable_noHead {f : Name} (hf : f ∈ optionNames) {vs : List Lit} (hv : ∀ v ∈ vs, v.Ok) :
    noMacroHead (listOf [.sym f, (enableArg f vs).toV]) = true := by
  have hfm := option_noMacro hf
  refine noHead_sym hfm (noHead_other ?_ (noHead_sym (by decide) (noHead_other ?_ (noHead_sym (by decide) ?_) (noHead_other ?_ (noHead_sym hfm rfl) rfl))) rfl)
  · intro x h; cases h
  · intro x h; cases h
  · rw [toVs_map]
    exact lits_noHead fun v h => ⟨lit_noHead (hv v h), lit_notSym v⟩
  · intro x h; cases h

theorem disable_noHead {f : Name} (hf : f ∈ optionNames) {xs : List Name} (hv : ∀ x ∈ xs, x ∉ macroNames) :
    noMacroHead (listOf [.sym f, (disableArg f xs).toV]) = true := by
  have hfm := option_noMacro hf
  have hl : noMacroHead (listOf (Exp.toVs (xs.map fun x => .quote (.sym x)))) = true := by
    rw [toVs_map]
    exact lits_noHead fun v h => ⟨lit_noHead (v := .sym v) (hv v h), lit_notSym (.sym v)⟩
  have hns : ∀ (a d : V) x, V.pair a d ≠ .sym x := by intro a d x h; cases h
  have hbody : noMacroHead (Exp.namedLet "filter-options" ["remaining", "result"] [.var "options", .quote .nil] filterBody).toV = true := by rfl
  refine noHead_sym hfm (noHead_other (hns _ _) (noHead_sym (by decide) (noHead_other (hns _ _) (noHead_other (hns _ _) (noHead_sym (show "options" ∉ macroNames by decide)
    (noHead_other (hns _ _) (noHead_sym hfm rfl) rfl)) (noHead_other (hns _ _) (noHead_sym (show "flags-to-remove" ∉ macroNames by decide) (noHead_other (hns _ _) (noHead_sym (by decide) hl) rfl)) rfl))
    (noHead_other (hns _ _) hbody rfl))) rfl)

end Pscm.Ref
