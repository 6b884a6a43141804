import Verif.RefStd
import Verif.RefPrims
import Verif.RefTop
import Verif.NumProps
/-! # The builtins of the interpreter implement their specification -/
namespace Pscm.Ref
open Pscm.Ev hiding Name Form evalForm
variable {σ : Type} {P : Prims σ} {F : FArith} {A : Name → Int → Prop} {W : World} {s : St σ}

/-- The arities they are registered with. -/
def stdArity (x : Name) : Int :=
  if x = "+" ∨ x = "*" then -1
  else if x = "quotient" ∨ x = "remainder" ∨ x = "modulo" ∨ x = "cons" ∨ x = "eq?" ∨ x = "eqv?" ∨ x = "equal?" ∨ x = "memq" ∨ x = "memv" ∨
    x = "assq" ∨ x = "assv" ∨ x = "list-tail" ∨ x = "list-ref" ∨ x = "char=?" ∨ x = "char<?" ∨ x = "char>?" ∨ x = "char<=?" ∨ x = "char>=?" ∨ x = "string-ref" ∨ x = "string=?" ∨
    x = "char-ci=?" ∨ x = "char-ci<?" ∨ x = "char-ci>?" ∨ x = "char-ci<=?" ∨ x = "char-ci>=?" ∨ x = "string<?" ∨ x = "string>?" ∨ x = "string<=?" ∨ x = "string>=?" ∨ x = "member" ∨ x = "assoc" then 2
  else if x = "substring" ∨ x = "acons" then 3
  else if x = "-" ∨ x = "=" ∨ x = "<" ∨ x = ">" ∨ x = "<=" ∨ x = ">=" ∨ x = "list" ∨ x = "append" ∨ x = "max" ∨ x = "min" ∨
    x = "string-append" ∨ x = "string" ∨ x = "number->string" ∨ x = "gcd" ∨ x = "lcm" then -2
  else 1

theorem std_arity {x : Name} {a : Int} (h : Registered x a) (hx : x ∈ stdNames) : a = stdArity x := by
  obtain ⟨r, hr, rfl, rfl⟩ := h
  have : registry.all (fun r => !decide (r.name ∈ stdNames) || decide (r.arity = stdArity r.name)) = true := by decide +kernel
  have := List.all_eq_true.1 this r hr
  simpa [hx] using this

theorem callPrim_std {x : Name} (hx : x ∈ stdNames) {rec : Rec σ} {ws : List V} : callPrim P rec x ws s = runPrim rec (P.call x ws s.ext) s := by
  have h : ∀ y ∈ stdNames, (y ≠ "values" ∧ y ≠ "force" ∧ y ≠ "catch" ∧ y ≠ "throw" ∧ y ≠ "eval" ∧ y ≠ "load" ∧ y ≠ "primitive-load" ∧
      y ≠ "macroexpand-1" ∧ y ≠ "macroexpand" ∧ isModPrim y = false ∧ isUnmodelled y = false) := by decide
  obtain ⟨h1, h2, h3, h4, h5, h6, h7, h8, h9, h10, h11⟩ := h x hx
  unfold callPrim
  simp only [h1, h2, h3, h4, h5, h6, h7, h8, h9, h10, h11, if_false, or_self, Bool.false_eq_true]
  rfl

theorem call_ok (hP : HasStd P F) {x : Name} (hx : x ∈ stdNames) {rec : Rec σ} {ws : List V} {w : V} (h : stdCall F x ws = some (.ok w)) :
    callPrim P rec x ws s = some (.ok w, s) := by
  rw [callPrim_std hx, hP.ok s.ext h]
  rfl

theorem call_err (hP : HasStd P F) {x : Name} (hx : x ∈ stdNames) {rec : Rec σ} {ws : List V} {e : Err} (h : stdCall F x ws = some (.err e))
    {t : Option Nat} (hc : Throws t s) : ∃ k d, callPrim P rec x ws s = some (.stop (.err t k d), s) := by
  obtain ⟨k, a, hk⟩ := hP.err s.ext h
  rw [callPrim_std hx, hk]
  refine ⟨k, a, ?_⟩
  show some (Out.stop (throwStop s k a), s) = _
  rw [hc]

theorem wrong_err {f : V} {t : Option Nat} (hc : Throws t s) : ∃ k d, (wrongArgs f : EM σ V) s = some (.stop (.err t k d), s) := by
  refine ⟨"wrong-number-of-args", listOf [.bool false, .str "Wrong number of arguments to ~A", f, .bool false], ?_⟩
  show some (Out.stop (throwStop s _ _), s) = _
  rw [hc]

/-! ## Values -/

theorem ints_rel {vs : List Val} {ws : List V} {ns : List Int} (h : VRels A W vs ws) (hn : ints vs = some ns) : ws = ns.map V.num := by
  induction h generalizing ns with
  | nil => cases hn; rfl
  | @cons v vs w ws hv hvs ih =>
    cases v with
    | num n =>
      simp only [ints, Option.map_eq_some_iff] at hn
      obtain ⟨ms, hm, rfl⟩ := hn
      have : w = .num n := hv
      rw [this, ih hm]
      rfl
    | _ => cases hn

theorem numsOf_nums (ns : List Int) : numsOf (ns.map V.num) = some (ns.map NumV.int) := by
  induction ns with
  | nil => rfl
  | cons n ns ih => simp [numsOf, Ev.numOf, ih]

theorem elems_rel : ∀ {v : Val} {w : V} {vs : List Val}, VRel A W v w → v.elems = some vs → ∃ ws, w = listOf ws ∧ VRels A W vs ws := by
  intro v
  induction v with
  | nil => intro w vs h k; cases k; exact ⟨[], h, .nil⟩
  | pair a d _ ih =>
    intro w vs h k
    obtain ⟨a', d', rfl, ha, hd⟩ := h
    simp only [Val.elems, Option.map_eq_some_iff] at k
    obtain ⟨us, hu, rfl⟩ := k
    obtain ⟨ws, rfl, hws⟩ := ih hd hu
    exact ⟨a' :: ws, rfl, .cons ha hws⟩
  | _ => intro w vs h k; cases k

theorem VRels.reverse {vs : List Val} {ws : List V} (h : VRels A W vs ws) : VRels A W vs.reverse ws.reverse := by
  induction h with
  | nil => exact .nil
  | cons hv _ ih => simp only [List.reverse_cons]; exact ih.append (.cons hv .nil)

theorem running_val {f : Int → Int → Int} {acc : Int} {ns : List Int} {v : Val} (h : running f acc ns = .val v) :
    v = .num (ns.foldl f acc) := by
  induction ns generalizing acc with
  | nil => cases h; rfl
  | cons n ns ih =>
    unfold running at h
    split at h
    · exact ih h
    · cases h

theorem running_noErr {f : Int → Int → Int} {acc : Int} {ns : List Int} : running f acc ns ≠ .error := by
  induction ns generalizing acc with
  | nil => intro h; cases h
  | cons n ns ih =>
    unfold running
    split
    · exact ih
    · intro h; cases h

theorem i64_word {n : Int} (h : Word n) : i64 n = .ok n := i64_ok h

/-- `(+ ...)` and `(* ...)`. -/
theorem reduce_run (hP : HasStd P F) {x : Name} (hx : x ∈ stdNames) {f : Int → Int → Int} {rec : Rec σ}
    (hf : ∀ a b, Word (f a b) → stdCall F x [.num a, .num b] = some (.ok (.num (f a b)))) {ns : List Int} {acc : Int} {v : Val}
    (h : running f acc ns = .val v) : reducePrim P rec x (.num acc) (ns.map V.num) s = some (.ok (.num (ns.foldl f acc)), s) := by
  induction ns generalizing acc with
  | nil => rfl
  | cons n ns ih =>
    unfold running at h
    split at h
    · rename_i hw
      simp only [List.map_cons, reducePrim, bind_apply, call_ok hP hx (hf acc n hw), List.foldl_cons]
      exact ih h
    · cases h

theorem minus_run {x : Int} {ns : List Int} {v : Val} (h : running (· - ·) x ns = .val v) :
    reduceR (scmSub F) (.int x) (ns.map .int) = .ok (.int (ns.foldl (· - ·) x)) := by
  induction ns generalizing x with
  | nil => rfl
  | cons n ns ih =>
    unfold running at h
    split at h
    · rename_i hw
      have : scmSub F (.int x) (.int n) = .ok (.int (x - n)) := by
        simp [scmSub, needsFloat, NumV.isFloat, binInt, i64_word hw]
      simp only [List.map_cons, reduceR, this, Res.bind_ok, List.foldl_cons]
      exact ih h
    · cases h

theorem chain_loop {op : CmpOp} {r : Int → Int → Bool} (hr : ∀ a b, cmpNumber F op (.int a) (.int b) = .ok (r a b)) (ns : List Int) :
    cmpChain F op (ns.map .int) = .ok (chain r ns) := by
  have hl : ∀ ns : List Int, chainLoop F op (ns.map .int) = .ok (chain r ns) := by
    intro ns
    induction ns with
    | nil => rfl
    | cons a ns ih =>
      cases ns with
      | nil => rfl
      | cons b ns =>
        simp only [List.map_cons, chainLoop, hr, Res.bind_ok, chain]
        simp only [List.map_cons] at ih
        cases r a b with
        | true => simpa using ih
        | false => rfl
  match ns with
  | [] => rfl
  | [_] => rfl
  | [a, b] => simp [cmpChain, hr, chain]
  | a :: b :: c :: ns => exact hl (a :: b :: c :: ns)

theorem fmod_unique {n d m k : Int} (hk : n = d * k + m) (hp : 0 < d → 0 ≤ m ∧ m < d) (hn : d < 0 → d < m ∧ m ≤ 0) (h0 : d ≠ 0) : m = n.fmod d := by
  have h1 : d * n.fdiv d + n.fmod d = n := Int.mul_fdiv_add_fmod n d
  have hd : d * (k - n.fdiv d) = n.fmod d - m := by rw [Int.mul_sub]; omega
  have hz : k - n.fdiv d = 0 := by
    have key : (n.fmod d - m).natAbs < d.natAbs := by
      rcases Int.lt_or_gt_of_ne h0 with h | h
      · have a1 := Int.fmod_nonneg_of_pos (-n) (show 0 < -d by omega)
        have a2 := Int.fmod_lt_of_pos (-n) (show 0 < -d by omega)
        rw [Int.neg_fmod_neg] at a1 a2
        have := hn h
        omega
      · have a1 := Int.fmod_nonneg_of_pos n h
        have a2 := Int.fmod_lt_of_pos n h
        have := hp h
        omega
    rw [← hd, Int.natAbs_mul] at key
    rcases Nat.eq_zero_or_pos (k - n.fdiv d).natAbs with h | h
    · omega
    · have := Nat.mul_le_mul_left d.natAbs h
      omega
  rw [hz] at hd
  omega

/-! ## The builtins one by one -/

/-- A builtin of the interpreter does what the specification says. -/
def Impl (P : Prims σ) (x : Name) : Prop :=
  (∀ {a vs v W ws} {s : St σ}, Registered x a → stdAp x vs = .val v → VRels Registered W vs ws →
    ∃ w, callFunc P (run P) x a ws s = some (.ok w, s) ∧ VRel Registered W v w) ∧
  (∀ {a vs W ws} {s : St σ} {t : Option Nat}, Registered x a → stdAp x vs = .error → VRels Registered W vs ws → Throws t s →
    ∃ k d, callFunc P (run P) x a ws s = some (.stop (.err t k d), s))

theorem impl_unary (hP : HasStd P F) {x : Name} (hx : x ∈ stdNames) (ha : stdArity x = 1) {f : Val → Ret Val} (hf : stdAp x = unary f)
    (H : ∀ {W : World} {v : Val} {w : V}, VRel Registered W v w →
      (∀ u, f v = .val u → ∃ w', stdCall F x [w] = some (.ok w') ∧ VRel Registered W u w') ∧ (f v = .error → ∃ e, stdCall F x [w] = some (.err e))) :
    Impl P x := by
  have key : ∀ {ws : List V} {s : St σ}, callFunc P (run P) x 1 ws s =
      if ws.length = 1 then callPrim P (run P) x ws s else (wrongArgs (.func x 1) : EM σ V) s := by
    intro ws s
    unfold callFunc
    simp only [true_or, or_true, if_true]
    by_cases h : ws.length = 1
    · rw [if_pos h, if_pos (by omega)]
    · rw [if_neg h, if_neg (by omega)]
  refine ⟨fun {a vs v W ws s} hr hv hvs => ?_, fun {a vs W ws s t} hr hv hvs hc => ?_⟩
  all_goals rw [std_arity hr hx, ha, key, ← hvs.length]
  · rw [hf] at hv
    match vs, hvs, hv with
    | [v'], .cons hv' .nil, hv =>
      obtain ⟨w', h1, h2⟩ := (H hv').1 _ hv
      exact ⟨w', by rw [if_pos (show [v'].length = 1 from rfl)]; exact call_ok hP hx h1, h2⟩
    | [], _, hv => cases hv
    | _ :: _ :: _, _, hv => cases hv
  · rw [hf] at hv
    match vs, hvs, hv with
    | [v'], .cons hv' .nil, hv =>
      obtain ⟨e, h1⟩ := (H hv').2 hv
      rw [if_pos (show [v'].length = 1 from rfl)]
      exact call_err hP hx h1 hc
    | [], _, hv => rw [if_neg (by simp)]; exact wrong_err hc
    | _ :: _ :: _, _, hv => rw [if_neg (by simp)]; exact wrong_err hc

theorem impl_binary (hP : HasStd P F) {x : Name} (hx : x ∈ stdNames) (ha : stdArity x = 2) {f : Val → Val → Ret Val} (hf : stdAp x = binary f)
    (H : ∀ {W : World} {v1 v2 : Val} {w1 w2 : V}, VRel Registered W v1 w1 → VRel Registered W v2 w2 →
      (∀ u, f v1 v2 = .val u → ∃ w', stdCall F x [w1, w2] = some (.ok w') ∧ VRel Registered W u w') ∧
      (f v1 v2 = .error → ∃ e, stdCall F x [w1, w2] = some (.err e))) :
    Impl P x := by
  have key : ∀ {ws : List V} {s : St σ}, callFunc P (run P) x 2 ws s =
      if ws.length = 2 then callPrim P (run P) x ws s else (wrongArgs (.func x 2) : EM σ V) s := by
    intro ws s
    unfold callFunc
    simp only [true_or, or_true, if_true]
    by_cases h : ws.length = 2
    · rw [if_pos h, if_pos (by omega)]
    · rw [if_neg h, if_neg (by omega)]
  refine ⟨fun {a vs v W ws s} hr hv hvs => ?_, fun {a vs W ws s t} hr hv hvs hc => ?_⟩
  all_goals rw [std_arity hr hx, ha, key, ← hvs.length]
  · rw [hf] at hv
    match vs, hvs, hv with
    | [v1, v2], .cons h1 (.cons h2 .nil), hv =>
      obtain ⟨w', h1, h2⟩ := (H h1 h2).1 _ hv
      exact ⟨w', by rw [if_pos (show [v1, v2].length = 2 from rfl)]; exact call_ok hP hx h1, h2⟩
    | [], _, hv => cases hv
    | [_], _, hv => cases hv
    | _ :: _ :: _ :: _, _, hv => cases hv
  · rw [hf] at hv
    match vs, hvs, hv with
    | [v1, v2], .cons h1 (.cons h2 .nil), hv =>
      obtain ⟨e, h1⟩ := (H h1 h2).2 hv
      rw [if_pos (show [v1, v2].length = 2 from rfl)]
      exact call_err hP hx h1 hc
    | [], _, hv => rw [if_neg (by simp)]; exact wrong_err hc
    | [_], _, hv => rw [if_neg (by simp)]; exact wrong_err hc
    | _ :: _ :: _ :: _, _, hv => rw [if_neg (by simp)]; exact wrong_err hc

theorem impl_ternary (hP : HasStd P F) {x : Name} (hx : x ∈ stdNames) (ha : stdArity x = 3) {f : Val → Val → Val → Ret Val} (hf : stdAp x = ternary f)
    (H : ∀ {W : World} {v1 v2 v3 : Val} {w1 w2 w3 : V}, VRel Registered W v1 w1 → VRel Registered W v2 w2 → VRel Registered W v3 w3 →
      (∀ u, f v1 v2 v3 = .val u → ∃ w', stdCall F x [w1, w2, w3] = some (.ok w') ∧ VRel Registered W u w') ∧
      (f v1 v2 v3 = .error → ∃ e, stdCall F x [w1, w2, w3] = some (.err e))) :
    Impl P x := by
  have key : ∀ {ws : List V} {s : St σ}, callFunc P (run P) x 3 ws s =
      if ws.length = 3 then callPrim P (run P) x ws s else (wrongArgs (.func x 3) : EM σ V) s := by
    intro ws s
    unfold callFunc
    simp only [true_or, or_true, if_true]
    by_cases h : ws.length = 3
    · rw [if_pos h, if_pos (by omega)]
    · rw [if_neg h, if_neg (by omega)]
  refine ⟨fun {a vs v W ws s} hr hv hvs => ?_, fun {a vs W ws s t} hr hv hvs hc => ?_⟩
  all_goals rw [std_arity hr hx, ha, key, ← hvs.length]
  · rw [hf] at hv
    match vs, hvs, hv with
    | [v1, v2, v3], .cons h1 (.cons h2 (.cons h3 .nil)), hv =>
      obtain ⟨w', h1, h2⟩ := (H h1 h2 h3).1 _ hv
      exact ⟨w', by rw [if_pos (show [v1, v2, v3].length = 3 from rfl)]; exact call_ok hP hx h1, h2⟩
    | [], _, hv => cases hv
    | [_], _, hv => cases hv
    | [_, _], _, hv => cases hv
    | _ :: _ :: _ :: _ :: _, _, hv => cases hv
  · rw [hf] at hv
    match vs, hvs, hv with
    | [v1, v2, v3], .cons h1 (.cons h2 (.cons h3 .nil)), hv =>
      obtain ⟨e, h1⟩ := (H h1 h2 h3).2 hv
      rw [if_pos (show [v1, v2, v3].length = 3 from rfl)]
      exact call_err hP hx h1 hc
    | [], _, hv => rw [if_neg (by simp)]; exact wrong_err hc
    | [_], _, hv => rw [if_neg (by simp)]; exact wrong_err hc
    | [_, _], _, hv => rw [if_neg (by simp)]; exact wrong_err hc
    | _ :: _ :: _ :: _ :: _, _, hv => rw [if_neg (by simp)]; exact wrong_err hc

theorem impl_list (hP : HasStd P F) {x : Name} (hx : x ∈ stdNames) (ha : stdArity x = -2)
    (H : ∀ {W : World} {vs : List Val} {ws : List V}, VRels Registered W vs ws →
      (∀ u, stdAp x vs = .val u → ∃ w', stdCall F x ws = some (.ok w') ∧ VRel Registered W u w') ∧
      (stdAp x vs = .error → ∃ e, stdCall F x ws = some (.err e))) :
    Impl P x := by
  have key : ∀ {ws : List V} {s : St σ}, callFunc P (run P) x (-2) ws s = callPrim P (run P) x ws s := by
    intro ws s
    have hn : ∀ y ∈ stdNames, isEvalOnly y = false ∧ y ≠ "call/cc" ∧ y ≠ "call-with-current-continuation" := by decide
    obtain ⟨h1, h2, h3⟩ := hn x hx
    unfold callFunc
    simp [h1, h2, h3]
  refine ⟨fun {a vs v W ws s} hr hv hvs => ?_, fun {a vs W ws s t} hr hv hvs hc => ?_⟩
  all_goals rw [std_arity hr hx, ha, key]
  · obtain ⟨w', h1, h2⟩ := (H hvs).1 _ hv
    exact ⟨w', call_ok hP hx h1, h2⟩
  · obtain ⟨e, h1⟩ := (H hvs).2 hv
    exact call_err hP hx h1 hc

theorem impl_fold (hP : HasStd P F) {x : Name} (hx : x ∈ stdNames) (ha : stdArity x = -1) {f : Int → Int → Int} {z : Int}
    (hs : stdAp x = onInts (running f z)) (hz : P.init x = .num z)
    (hf : ∀ a b, Word (f a b) → stdCall F x [.num a, .num b] = some (.ok (.num (f a b)))) : Impl P x := by
  refine ⟨fun {a vs v W ws s} hr hv hvs => ?_, fun {a vs W ws s t} hr hv hvs hc => ?_⟩
  all_goals rw [hs] at hv; unfold onInts at hv; split at hv
  · rename_i ns hn
    rw [std_arity hr hx, ha, ints_rel hvs hn]
    refine ⟨_, ?_, by rw [running_val hv]; rfl⟩
    show reducePrim P (run P) x (P.init x) _ s = _
    rw [hz]
    exact reduce_run hP hx hf hv
  · cases hv
  · exact absurd hv running_noErr
  · cases hv

theorem impl_compare (hP : HasStd P F) {x : Name} (hx : x ∈ stdNames) (ha : stdArity x = -2) {op : CmpOp} {r : Int → Int → Bool}
    (hs : stdAp x = onInts fun ns => .val (.bool (chain r ns))) (hl : ∀ ws, listCall x ws = none ∧ moreCall x ws = none) (hc : ∀ ns, numCall F x ns = boolRes (cmpChain F op ns))
    (hr : ∀ a b, cmpNumber F op (.int a) (.int b) = .ok (r a b)) : Impl P x := by
  refine impl_list hP hx ha fun {W vs ws} hvs => ⟨fun u hu => ?_, fun he => ?_⟩
  · rw [hs] at hu
    unfold onInts at hu
    split at hu
    · rename_i ns hn
      cases hu
      refine ⟨.bool (chain r ns), ?_, rfl⟩
      unfold stdCall
      rw [(hl _).1, (hl _).2, ints_rel hvs hn, numsOf_nums]
      show numCall F x _ = _
      rw [hc, chain_loop hr]
      rfl
    · cases hu
  · rw [hs] at he
    unfold onInts at he
    split at he <;> cases he

/-- A value that is not an integer. -/
theorem numOf_other {v : Val} {w : V} (h : VRel Registered W v w) (hn : ∀ n, v ≠ .num n) : Ev.numOf w = some .other := by
  cases v with
  | num n => exact absurd rfl (hn n)
  | undefined => cases h
  | unassigned => cases h
  | pair a d => obtain ⟨_, _, rfl, _⟩ := h; rfl
  | prim x => obtain ⟨_, _, rfl⟩ := h; rfl
  | clo ps rest body ρ => obtain ⟨_, rfl, _⟩ := h; rfl
  | _ => cases h; rfl

theorem impl_test (hP : HasStd P F) {x : Name} (hx : x ∈ stdNames) (ha : stdArity x = 1) {f : Val → Ret Val} {p : NumV → Res Bool}
    (hs : stdAp x = unary f) (hl : ∀ ws, listCall x ws = none ∧ moreCall x ws = none) (hc : ∀ a, numCall F x [a] = boolRes (p a))
    (hv : ∀ n u, f (.num n) = .val u → ∃ b, u = .bool b ∧ p (.int n) = .ok b) (he : ∀ n, f (.num n) ≠ .error)
    (ho : ∀ v u, (∀ n, v ≠ .num n) → f v ≠ .val u) (hpo : ∃ e, p .other = .err e) : Impl P x := by
  refine impl_unary hP hx ha hs fun {W v w} hr => ⟨fun u hu => ?_, fun he' => ?_⟩
  · cases v with
    | num n =>
      cases hr
      obtain ⟨b, rfl, hb⟩ := hv n u hu
      refine ⟨.bool b, ?_, rfl⟩
      unfold stdCall
      rw [(hl _).1, (hl _).2]
      show numCall F x [.int n] = _
      rw [hc, hb]
      rfl
    | _ => exact absurd hu (ho _ _ (by intro n h; cases h))
  · have hn : ∀ n, v ≠ .num n := by rintro n rfl; exact he n he'
    obtain ⟨e, hpo⟩ := hpo
    refine ⟨e, ?_⟩
    unfold stdCall
    rw [(hl _).1, (hl _).2]
    show (numsOf [w]).bind _ = _
    simp only [numsOf, numOf_other hr hn, Option.bind_some, Option.map_some]
    rw [hc, hpo]
    rfl

theorem impl_division (hP : HasStd P F) {x : Name} (hx : x ∈ stdNames) (ha : stdArity x = 2) {f : Int → Int → Int} {p : NumV → NumV → Res NumV}
    (hs : stdAp x = binary (division f)) (hl : ∀ ws, listCall x ws = none ∧ moreCall x ws = none) (hc : ∀ a b, numCall F x [a, b] = numRes (p a b))
    (hv : ∀ a b, b ≠ 0 → InI64 a → InI64 b → InI64 (a.tdiv b) → p (.int a) (.int b) = .ok (.int (f a b)))
    (hz : ∀ a, p (.int a) (.int 0) = .err .evalError) (h1 : ∀ a, p .other a = .err .evalError) (h2 : ∀ a, p a .other = .err .evalError) : Impl P x := by
  refine impl_binary hP hx ha hs fun {W v1 v2 w1 w2} hr1 hr2 => ⟨fun u hu => ?_, fun he => ?_⟩
  · unfold division at hu
    split at hu
    · rename_i a b
      cases hr1
      cases hr2
      split at hu
      · cases hu
      · rename_i hb
        split at hu
        · rename_i hw
          cases hu
          refine ⟨.num (f a b), ?_, rfl⟩
          unfold stdCall
          rw [(hl _).1, (hl _).2]
          show numCall F x [.int a, .int b] = _
          rw [hc, hv a b hb hw.1 hw.2.1 hw.2.2]
          rfl
        · cases hu
    · cases hu
  · refine ⟨.evalError, ?_⟩
    unfold stdCall
    rw [(hl _).1, (hl _).2]
    have gen : ∀ {a b : NumV}, Ev.numOf w1 = some a → Ev.numOf w2 = some b → p a b = .err .evalError →
        (numsOf [w1, w2]).bind (numCall F x) = some (.err .evalError) := by
      intro a b ha hb hp
      simp only [numsOf, ha, hb, Option.bind_some, Option.map_some]
      rw [hc, hp]
      rfl
    show (numsOf [w1, w2]).bind (numCall F x) = _
    by_cases k1 : ∃ n, v1 = .num n
    · obtain ⟨a, rfl⟩ := k1
      cases hr1
      by_cases k2 : ∃ n, v2 = .num n
      · obtain ⟨b, rfl⟩ := k2
        cases hr2
        unfold division at he
        simp only [] at he
        split at he
        · rename_i hb
          subst hb
          exact gen rfl rfl (hz a)
        · split at he <;> cases he
      · exact gen rfl (numOf_other hr2 fun n h => k2 ⟨n, h⟩) (h2 _)
    · have e1 := numOf_other hr1 fun n h => k1 ⟨n, h⟩
      by_cases k2 : ∃ n, v2 = .num n
      · obtain ⟨b, rfl⟩ := k2
        cases hr2
        exact gen e1 rfl (h1 _)
      · exact gen e1 (numOf_other hr2 fun n h => k2 ⟨n, h⟩) (h1 _)

end Pscm.Ref
