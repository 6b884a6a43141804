import Verif.MemData3
/-!
# C148: the list builtins compute on data

The model of the evaluator has trees as values; the models of `list.cc`, `alist.cc`, `eq.cc` and `predicate.cc` have nodes and addresses.  Here: on objects that hold data
(`Spec.Holds`), the C functions give objects that hold what the reference semantics (`Ref.stdAp`, the builtins of C138) says, and everything that was in memory holds the same data
as before.
-/
namespace Pscm
open Spec Mem

/-- The builtins. -/
def listBuiltins : List String :=
  ["cons", "car", "cdr", "cadr", "cddr", "caddr", "list", "length", "reverse", "append", "list-tail", "list-ref", "list?", "eq?", "eqv?", "equal?", "memq", "memv", "member", "assq", "assv",
   "assoc", "acons", "null?", "pair?", "not", "symbol?", "boolean?", "procedure?", "string?", "char?", "number?", "integer?"]

namespace Mem

theorem ap_length : Ref.stdAp "length" = Ref.unary fun v =>
    match v.elems with
    | some vs => if vs.length < 2 ^ 31 then .val (.num vs.length) else .unknown
    | none => .unknown := rfl

theorem ap_reverse : Ref.stdAp "reverse" = Ref.unary fun v =>
    match v.elems with
    | some vs => .val (Ref.Val.list vs.reverse)
    | none => .unknown := rfl

theorem ap_append : Ref.stdAp "append" = fun vs =>
    match Ref.allElems vs with
    | some us => .val (Ref.Val.list us)
    | none => .unknown := rfl

theorem ap_list_tail : Ref.stdAp "list-tail" = Ref.binary fun l k =>
    match l.elems, k with
    | some (v :: vs), .num k => if 0 ≤ k ∧ k ≤ (v :: vs).length then .val (Ref.Val.list ((v :: vs).drop k.toNat)) else .unknown
    | _, _ => .unknown := rfl

theorem ap_list_ref : Ref.stdAp "list-ref" = Ref.binary fun l k =>
    match l.elems, k with
    | some vs, .num k => if k < 0 then .error else
      match vs[k.toNat]? with
      | some v => .val v
      | none => .error
    | _, _ => .unknown := rfl

theorem ap_listP : Ref.stdAp "list?" = Ref.unary fun v =>
    match v.elems with
    | some vs => if vs.length ≤ 10000 then .val (.bool true) else .unknown
    | none => .val (.bool false) := rfl

theorem ap_eqP : Ref.stdAp "eq?" = Ref.binary fun v w =>
    match Ref.sameKey v w with
    | some b => .val (.bool b)
    | none => .unknown := rfl

theorem ap_eqvP : Ref.stdAp "eqv?" = Ref.binary fun v w =>
    match Ref.sameKey v w with
    | some b => .val (.bool b)
    | none => .unknown := rfl

theorem ap_equalP : Ref.stdAp "equal?" = Ref.binary fun v w =>
    match v.datum, w.datum with
    | some a, some b => .val (.bool (decide (a = b)))
    | _, _ => .unknown := rfl

theorem ap_memq : Ref.stdAp "memq" = Ref.binary fun v l =>
    match l.elems with
    | some vs => Ref.firstTail (Ref.sameKey v) vs
    | none => .unknown := rfl

theorem ap_memv : Ref.stdAp "memv" = Ref.binary fun v l =>
    match l.elems with
    | some vs => if v.isSimple then Ref.firstTail (Ref.sameKey v) vs else .unknown
    | none => .unknown := rfl

theorem ap_member : Ref.stdAp "member" = Ref.binary fun v l =>
    match l.elems with
    | some vs => Ref.firstTail (Ref.sameDatum v) vs
    | none => .unknown := rfl

theorem ap_assq : Ref.stdAp "assq" = Ref.binary fun v l =>
    match l.elems with
    | some vs => if v.isName then Ref.firstEntry (Ref.sameKey v) vs else .unknown
    | none => .unknown := rfl

theorem ap_assv : Ref.stdAp "assv" = Ref.binary fun v l =>
    match l.elems with
    | some vs => Ref.firstEntry (Ref.sameKey v) vs
    | none => .unknown := rfl

theorem ap_assoc : Ref.stdAp "assoc" = Ref.binary fun v l =>
    match l.elems with
    | some vs => Ref.firstEntry (Ref.sameDatum v) vs
    | none => .unknown := rfl

theorem ap_acons : Ref.stdAp "acons" = Ref.ternary fun k v l => .val (.pair (.pair k v) l) := rfl

theorem ap_cadr : Ref.stdAp "cadr" = Ref.unary fun
    | .pair _ (.pair b _) => .val b
    | .pair _ .nil => .error
    | .pair _ _ => .unknown
    | _ => .error := rfl

theorem ap_cddr : Ref.stdAp "cddr" = Ref.unary fun
    | .pair _ (.pair _ d) => .val d
    | _ => .error := rfl

theorem ap_caddr : Ref.stdAp "caddr" = Ref.unary fun
    | .pair _ (.pair _ (.pair c _)) => .val c
    | _ => .error := rfl

theorem unary_val {f : Ref.Val → Ref.Ret Ref.Val} {us : List Ref.Val} {v : Ref.Val} (h : Ref.unary f us = .val v) : ∃ u, us = [u] ∧ f u = .val v := by
  match us, h with
  | [u], h => exact ⟨u, rfl, h⟩

theorem binary_val {f : Ref.Val → Ref.Val → Ref.Ret Ref.Val} {us : List Ref.Val} {v : Ref.Val} (h : Ref.binary f us = .val v) : ∃ u w, us = [u, w] ∧ f u w = .val v := by
  match us, h with
  | [u, w], h => exact ⟨u, w, rfl, h⟩

theorem ternary_val {f : Ref.Val → Ref.Val → Ref.Val → Ref.Ret Ref.Val} {us : List Ref.Val} {v : Ref.Val} (h : Ref.ternary f us = .val v) :
    ∃ u w x, us = [u, w, x] ∧ f u w x = .val v := by
  match us, h with
  | [u, w, x], h => exact ⟨u, w, x, rfl, h⟩

variable {h : Heap} {F : FArith}

theorem hold1 {os : List Obj} {u : Ref.Val} (ho : HoldAll h os [u]) : ∃ o, os = [o] ∧ Holds h o.v u := by
  cases ho with
  | cons ho hr => cases hr; exact ⟨_, rfl, ho⟩

theorem hold2 {os : List Obj} {u w : Ref.Val} (ho : HoldAll h os [u, w]) : ∃ o p, os = [o, p] ∧ Holds h o.v u ∧ Holds h p.v w := by
  cases ho with
  | cons ho hr =>
    obtain ⟨p, rfl, hp⟩ := hold1 hr
    exact ⟨_, p, rfl, ho, hp⟩

theorem hold3 {os : List Obj} {u w x : Ref.Val} (ho : HoldAll h os [u, w, x]) : ∃ o p q, os = [o, p, q] ∧ Holds h o.v u ∧ Holds h p.v w ∧ Holds h q.v x := by
  cases ho with
  | cons ho hr =>
    obtain ⟨p, q, rfl, hp, hq⟩ := hold2 hr
    exact ⟨_, p, q, rfl, ho, hp, hq⟩

/-- The call of the builtin works. -/
def Calls (F : FArith) (h : Heap) (name : String) (args : List Obj) (v : Ref.Val) : Prop :=
  ∃ N, ∀ fuel, N ≤ fuel → ∃ m r h', memCall F fuel name args = some m ∧ m h = (.ok r, h') ∧ Holds h' r.v v ∧ Ext h h'

theorem calls {name : String} {args : List Obj} {m : Nat → M Obj} {v : Ref.Val} (hm : ∀ fuel, memCall F fuel name args = some (m fuel)) (w : Works h m v) : Calls F h name args v := by
  obtain ⟨N, hN⟩ := w
  refine ⟨N, fun fuel hf => ?_⟩
  obtain ⟨r, h', e⟩ := hN fuel hf
  exact ⟨m fuel, r, h', hm fuel, e⟩

theorem now {m : M Obj} {r : Obj} {h' : Heap} {v : Ref.Val} (e : m h = (.ok r, h')) (hv : Holds h' r.v v) (he : Ext h h') : Works h (fun _ => m) v :=
  ⟨0, fun _ _ => ⟨r, h', e, hv, he⟩⟩

theorem test_works {t : Nat → Heap → Res Bool} {b : Bool} (ht : ∃ N, ∀ fuel, N ≤ fuel → t fuel h = .ok b) : Works h (fun fuel => testObj (t fuel)) (.bool b) := by
  obtain ⟨N, hN⟩ := ht
  exact works_bool N (fun fuel hf => by simp [testObj, M.bind_app, hN fuel hf])

theorem cddr_holds {o : Obj} {u w x : Ref.Val} (hv : Holds h o.v (.pair u (.pair w x))) : ∃ r h', cddr o h = (.ok r, h') ∧ Holds h' r.v x ∧ Ext h h' := by
  obtain ⟨r, h1, e1, hr, he1⟩ := cdr_holds hv
  obtain ⟨r2, h2, e2, hr2, he2⟩ := cdr_holds hr
  exact ⟨r2, h2, by simp only [cddr]; rw [M.bind_ok e1]; exact e2, hr2, he1.trans he2⟩

theorem cadr_holds {o : Obj} {u w x : Ref.Val} (hv : Holds h o.v (.pair u (.pair w x))) : ∃ r, cadr o h = (.ok r, h) ∧ Holds h r.v w := by
  cases hov : o.v with
  | list a =>
    rw [hov] at hv
    cases hv with
    | @next _ b n _ _ ha hd hn hu hw =>
      obtain ⟨b', m, hbv, hb, hm, hu'⟩ := pair_cases hw
      cases hbv
      refine ⟨m.data, ?_, hu'⟩
      simp only [cadr, hov]
      rw [M.bind_ok (getNode_ok ha), hn]
      simp only
      rw [M.bind_ok (getNode_ok hb)]; rfl
    | @dot _ b n m _ _ ha hd hn hb hm hl h1 h2 hu hw =>
      exact absurd (by
        obtain ⟨b', m', hbv, -⟩ := pair_cases hw
        rw [hbv]; rfl) h1
  | _ => rw [hov] at hv; cases hv

end Mem

/-- **C148** If the semantics of Scheme gives the call of a list builtin on data the value `v`, the C function on objects that hold the data returns (its loops end) an object that
holds `v`; and everything that held a datum before holds it afterwards. -/
theorem c148_value_partial {h : Heap} (F : FArith) {name : String} (hn : name ∈ listBuiltins) {args : List Obj} {us : List Ref.Val} (ha : HoldAll h args us) {v : Ref.Val}
    (hv : Ref.stdAp name us = .val v) :
    ∃ N, ∀ fuel, N ≤ fuel → ∃ m r h', memCall F fuel name args = some m ∧ m h = (.ok r, h') ∧ Holds h' r.v v ∧ ∀ w u, Holds h w u → Holds h' w u := by
  suffices hc : Calls F h name args v by
    obtain ⟨N, hN⟩ := hc
    refine ⟨N, fun fuel hf => ?_⟩
    obtain ⟨m, r, h', e1, e2, e3, e4⟩ := hN fuel hf
    exact ⟨m, r, h', e1, e2, e3, fun w u hw => hw.mono e4⟩
  simp only [listBuiltins, List.mem_cons, List.not_mem_nil, or_false] at hn
  rcases hn with rfl | rfl | rfl | rfl | rfl | rfl | rfl | rfl | rfl | rfl | rfl | rfl | rfl | rfl | rfl | rfl | rfl | rfl | rfl | rfl | rfl | rfl | rfl | hn
  · -- cons
    replace hv := binary_val hv
    obtain ⟨a, d, rfl, hv⟩ := hv
    obtain ⟨o, p, rfl, ho, hp⟩ := hold2 ha
    cases hv
    exact calls (fun _ => rfl) (cons_holds ho hp)
  · -- car
    replace hv := unary_val hv
    obtain ⟨a, rfl, hv⟩ := hv
    obtain ⟨o, rfl, ho⟩ := hold1 ha
    cases a <;> cases hv
    obtain ⟨r, e, hr⟩ := car_holds ho
    exact calls (fun _ => rfl) (now e hr (Ext.refl h))
  · -- cdr
    replace hv := unary_val hv
    obtain ⟨a, rfl, hv⟩ := hv
    obtain ⟨o, rfl, ho⟩ := hold1 ha
    cases a <;> cases hv
    obtain ⟨r, h', e, hr, he⟩ := cdr_holds ho
    exact calls (fun _ => rfl) (now e hr he)
  · -- cadr
    replace hv := unary_val hv
    obtain ⟨a, rfl, hv⟩ := hv
    obtain ⟨o, rfl, ho⟩ := hold1 ha
    cases a with
    | pair x y =>
      cases y <;> cases hv
      obtain ⟨r, e, hr⟩ := cadr_holds ho
      exact calls (fun _ => rfl) (now e hr (Ext.refl h))
    | _ => cases hv
  · -- cddr
    replace hv := unary_val hv
    obtain ⟨a, rfl, hv⟩ := hv
    obtain ⟨o, rfl, ho⟩ := hold1 ha
    cases a with
    | pair x y =>
      cases y <;> cases hv
      obtain ⟨r, h', e, hr, he⟩ := cddr_holds ho
      exact calls (fun _ => rfl) (now e hr he)
    | _ => cases hv
  · -- caddr
    replace hv := unary_val hv
    obtain ⟨a, rfl, hv⟩ := hv
    obtain ⟨o, rfl, ho⟩ := hold1 ha
    cases a with
    | pair x y =>
      cases y with
      | pair y z =>
        cases z <;> cases hv
        obtain ⟨r, h', e, hr, he⟩ := cddr_holds ho
        obtain ⟨r2, e2, hr2⟩ := car_holds hr
        refine calls (fun _ => rfl) (now (r := r2) (h' := h') ?_ hr2 he)
        simp only [cddr] at e
        have e3 : caddr o = (do let x ← (do let y ← cdr o; cdr y : M Obj); car x : M Obj) := by
          funext h0
          simp only [caddr, M.bind_app]
          cases cdr o h0 with
          | mk r h1 => cases r <;> rfl
        rw [e3, M.bind_ok e, e2]
      | _ => cases hv
    | _ => cases hv
  · -- list
    cases hv
    exact calls (fun _ => rfl) (list_works ha)
  · -- length
    rw [ap_length] at hv
    replace hv := unary_val hv
    obtain ⟨a, rfl, hv⟩ := hv
    obtain ⟨o, rfl, ho⟩ := hold1 ha
    cases he : a.elems with
    | none => simp [he] at hv
    | some vs =>
      simp only [he] at hv
      split at hv
      · cases hv
        exact calls (fun _ => rfl) (length_works ho he (by assumption))
      · cases hv
  · -- reverse
    rw [ap_reverse] at hv
    replace hv := unary_val hv
    obtain ⟨a, rfl, hv⟩ := hv
    obtain ⟨o, rfl, ho⟩ := hold1 ha
    cases he : a.elems with
    | none => simp [he] at hv
    | some vs =>
      simp only [he] at hv
      cases hv
      exact calls (fun _ => rfl) (reverse_works ho he)
  · -- append
    rw [ap_append] at hv
    cases he : Ref.allElems us with
    | none => simp [he] at hv
    | some vs =>
      simp only [he] at hv
      cases hv
      exact calls (fun _ => rfl) (append_works ha he)
  · -- list-tail
    rw [ap_list_tail] at hv
    replace hv := binary_val hv
    obtain ⟨l, k, rfl, hv⟩ := hv
    obtain ⟨o, p, rfl, ho, hp⟩ := hold2 ha
    cases he : l.elems with
    | none => simp [he] at hv
    | some vs =>
      cases vs with
      | nil => simp [he] at hv
      | cons x vs =>
        cases k with
        | num n =>
          simp only [he] at hv
          split at hv
          · rename_i hk
            cases hv
            exact calls (fun _ => rfl) (tail_works ho hp he hk.1 hk.2)
          · cases hv
        | _ => simp [he] at hv
  · -- list-ref
    rw [ap_list_ref] at hv
    replace hv := binary_val hv
    obtain ⟨l, k, rfl, hv⟩ := hv
    obtain ⟨o, p, rfl, ho, hp⟩ := hold2 ha
    cases he : l.elems with
    | none => simp [he] at hv
    | some vs =>
      cases k with
      | num n =>
        simp only [he] at hv
        split at hv
        · cases hv
        · cases hg : vs[n.toNat]? with
          | none => rw [hg] at hv; cases hv
          | some x =>
            rw [hg] at hv
            cases hv
            exact calls (fun _ => rfl) (ref_works ho hp he (by omega) hg)
      | _ => simp [he] at hv
  · -- list?
    rw [ap_listP] at hv
    replace hv := unary_val hv
    obtain ⟨a, rfl, hv⟩ := hv
    obtain ⟨o, rfl, ho⟩ := hold1 ha
    cases he : a.elems with
    | none =>
      simp only [he] at hv
      cases hv
      have := isList_works ho (by simp [he])
      rw [he] at this
      exact calls (fun _ => rfl) this
    | some vs =>
      simp only [he] at hv
      split at hv
      · rename_i hlen
        cases hv
        have := isList_works ho (by intro us hus; rw [he] at hus; cases hus; exact hlen)
        rw [he] at this
        exact calls (fun _ => rfl) this
      · cases hv
  · -- eq?
    rw [ap_eqP] at hv
    replace hv := binary_val hv
    obtain ⟨a, b, rfl, hv⟩ := hv
    obtain ⟨o, p, rfl, ho, hp⟩ := hold2 ha
    cases hk : Ref.sameKey a b with
    | none => simp [hk] at hv
    | some r =>
      simp only [hk] at hv
      cases hv
      exact calls (fun _ => rfl) (test_works ⟨0, fun _ _ => (eqP_key F ho hp hk).1⟩)
  · -- eqv?
    rw [ap_eqvP] at hv
    replace hv := binary_val hv
    obtain ⟨a, b, rfl, hv⟩ := hv
    obtain ⟨o, p, rfl, ho, hp⟩ := hold2 ha
    cases hk : Ref.sameKey a b with
    | none => simp [hk] at hv
    | some r =>
      simp only [hk] at hv
      cases hv
      exact calls (fun _ => rfl) (test_works ⟨0, fun _ _ => (eqP_key F ho hp hk).2⟩)
  · -- equal?
    rw [ap_equalP] at hv
    replace hv := binary_val hv
    obtain ⟨a, b, rfl, hv⟩ := hv
    obtain ⟨o, p, rfl, ho, hp⟩ := hold2 ha
    cases h1 : a.datum with
    | none => simp [h1] at hv
    | some d =>
      cases h2 : b.datum with
      | none => simp [h1, h2] at hv
      | some e =>
        simp only [h1, h2] at hv
        cases hv
        exact calls (fun _ => rfl) (test_works (equal_data F ho hp h1 h2))
  · -- memq
    rw [ap_memq] at hv
    replace hv := binary_val hv
    obtain ⟨a, l, rfl, hv⟩ := hv
    obtain ⟨o, p, rfl, ho, hp⟩ := hold2 ha
    cases he : l.elems with
    | none => simp [he] at hv
    | some vs =>
      simp only [he] at hv
      exact calls (fun _ => rfl) (mem_works (test := fun _ h y => eqP F h o y) (fun hu hb => ⟨0, fun _ _ => (eqP_key F ho hu hb).1⟩) hp he hv)
  · -- memv
    rw [ap_memv] at hv
    replace hv := binary_val hv
    obtain ⟨a, l, rfl, hv⟩ := hv
    obtain ⟨o, p, rfl, ho, hp⟩ := hold2 ha
    cases he : l.elems with
    | none => simp [he] at hv
    | some vs =>
      simp only [he] at hv
      split at hv
      · rename_i hs
        exact calls (fun _ => rfl) (mem_works (test := fun _ _ y => memvEqv F o y) (fun hu hb => ⟨0, fun _ _ => memv_key F ho hu hs hb⟩) hp he hv)
      · cases hv
  · -- member
    rw [ap_member] at hv
    replace hv := binary_val hv
    obtain ⟨a, l, rfl, hv⟩ := hv
    obtain ⟨o, p, rfl, ho, hp⟩ := hold2 ha
    cases he : l.elems with
    | none => simp [he] at hv
    | some vs =>
      simp only [he] at hv
      exact calls (fun _ => rfl) (mem_works (test := fun fuel h y => legacyEq F h fuel o y) (fun hu hb => legacy_data F ho hu hb) hp he hv)
  · -- assq
    rw [ap_assq] at hv
    replace hv := binary_val hv
    obtain ⟨a, l, rfl, hv⟩ := hv
    obtain ⟨o, p, rfl, ho, hp⟩ := hold2 ha
    cases he : l.elems with
    | none => simp [he] at hv
    | some vs =>
      simp only [he] at hv
      split at hv
      · rename_i hs
        exact calls (fun _ => rfl) (ass_works (test := fun _ _ y => .ok (assqEq o y)) (fun hu hb => ⟨0, fun _ _ => by rw [assq_key ho hu hs hb]⟩) hp he hv)
      · cases hv
  · -- assv
    rw [ap_assv] at hv
    replace hv := binary_val hv
    obtain ⟨a, l, rfl, hv⟩ := hv
    obtain ⟨o, p, rfl, ho, hp⟩ := hold2 ha
    cases he : l.elems with
    | none => simp [he] at hv
    | some vs =>
      simp only [he] at hv
      refine calls (fun _ => rfl) (assv_works F (fun hu hb => ⟨1, fun fuel hf => ?_⟩) hp he hv)
      obtain ⟨f, rfl⟩ : ∃ f, fuel = f + 1 := ⟨fuel - 1, by omega⟩
      exact legacy_key F ho hu hb f
  · -- assoc
    rw [ap_assoc] at hv
    replace hv := binary_val hv
    obtain ⟨a, l, rfl, hv⟩ := hv
    obtain ⟨o, p, rfl, ho, hp⟩ := hold2 ha
    cases he : l.elems with
    | none => simp [he] at hv
    | some vs =>
      simp only [he] at hv
      exact calls (fun _ => rfl) (ass_works (test := fun fuel h y => legacyEq F h fuel o y) (fun hu hb => legacy_data F ho hu hb) hp he hv)
  · -- acons
    rw [ap_acons] at hv
    replace hv := ternary_val hv
    obtain ⟨a, b, l, rfl, hv⟩ := hv
    obtain ⟨o, p, q, rfl, ho, hp, hq⟩ := hold3 ha
    cases hv
    exact calls (fun _ => rfl) (acons_works ho hp hq)
  · -- the predicates
    rcases hn with rfl | rfl | rfl | rfl | rfl | rfl | rfl | rfl | rfl | rfl
    all_goals
      replace hv := unary_val hv
      obtain ⟨a, rfl, hv⟩ := hv
      obtain ⟨⟨i, ov⟩, rfl, ho⟩ := hold1 ha
      cases ho <;> cases hv <;> exact calls (fun _ => rfl) (works_bool 0 (fun _ _ => by first | rfl | (rename_i b _ _; cases b <;> rfl)))


namespace Mem

theorem unary_err {f : Ref.Val → Ref.Ret Ref.Val} {us : List Ref.Val} (hl : us.length = 1) (h : Ref.unary f us = .error) : ∃ u, us = [u] ∧ f u = .error := by
  match us, hl, h with
  | [u], _, h => exact ⟨u, rfl, h⟩

theorem binary_err {f : Ref.Val → Ref.Val → Ref.Ret Ref.Val} {us : List Ref.Val} (hl : us.length = 2) (h : Ref.binary f us = .error) : ∃ u w, us = [u, w] ∧ f u w = .error := by
  match us, hl, h with
  | [u, w], _, h => exact ⟨u, w, rfl, h⟩

theorem ternary_err {f : Ref.Val → Ref.Val → Ref.Val → Ref.Ret Ref.Val} {us : List Ref.Val} (hl : us.length = 3) (h : Ref.ternary f us = .error) :
    ∃ u w x, us = [u, w, x] ∧ f u w x = .error := by
  match us, hl, h with
  | [u, w, x], _, h => exact ⟨u, w, x, rfl, h⟩

variable {h : Heap} {F : FArith}

theorem arity1 {name : String} {args : List Obj} {us : List Ref.Val} (ha : HoldAll h args us) (h0 : memCall F 0 name [] = none) (h2 : ∀ a b r, memCall F 0 name (a :: b :: r) = none)
    (hne : memCall F 0 name args ≠ none) : us.length = 1 := by
  rw [← ha.length]
  match args, hne with
  | [], hne => exact absurd h0 hne
  | [_], _ => rfl
  | a :: b :: r, hne => exact absurd (h2 a b r) hne

theorem arity2 {name : String} {args : List Obj} {us : List Ref.Val} (ha : HoldAll h args us) (h0 : memCall F 0 name [] = none) (h1 : ∀ a, memCall F 0 name [a] = none)
    (h3 : ∀ a b c r, memCall F 0 name (a :: b :: c :: r) = none) (hne : memCall F 0 name args ≠ none) : us.length = 2 := by
  rw [← ha.length]
  match args, hne with
  | [], hne => exact absurd h0 hne
  | [a], hne => exact absurd (h1 a) hne
  | [_, _], _ => rfl
  | a :: b :: c :: r, hne => exact absurd (h3 a b c r) hne

theorem arity3 {name : String} {args : List Obj} {us : List Ref.Val} (ha : HoldAll h args us) (h0 : memCall F 0 name [] = none) (h1 : ∀ a, memCall F 0 name [a] = none)
    (h2 : ∀ a b, memCall F 0 name [a, b] = none) (h4 : ∀ a b c d r, memCall F 0 name (a :: b :: c :: d :: r) = none) (hne : memCall F 0 name args ≠ none) : us.length = 3 := by
  rw [← ha.length]
  match args, hne with
  | [], hne => exact absurd h0 hne
  | [a], hne => exact absurd (h1 a) hne
  | [a, b], hne => exact absurd (h2 a b) hne
  | [_, _, _], _ => rfl
  | a :: b :: c :: d :: r, hne => exact absurd (h4 a b c d r) hne

/-- The call of the builtin is an error. -/
def Errs (F : FArith) (h : Heap) (name : String) (args : List Obj) : Prop := ∃ m : Nat → M Obj, (∀ fuel, memCall F fuel name args = some (m fuel)) ∧ Fails h m

theorem errs {m : M Obj} {e : Err} {h' : Heap} (hm : m h = (.err e, h')) (he : Ext h h') : Fails h (fun _ => m) := ⟨0, fun _ _ => ⟨e, h', hm, he⟩⟩

theorem no_tail {t : Ref.Val → Option Bool} : ∀ {us : List Ref.Val}, Ref.firstTail t us ≠ .error := by
  intro us
  induction us with
  | nil => intro h; cases h
  | cons v vs ih =>
    intro h
    simp only [Ref.firstTail] at h
    split at h
    · cases h
    · exact ih h
    · cases h

theorem no_entry {t : Ref.Val → Option Bool} : ∀ {us : List Ref.Val}, Ref.firstEntry t us ≠ .error := by
  intro us
  induction us with
  | nil => intro h; cases h
  | cons v vs ih =>
    intro h
    cases v with
    | pair k w =>
      simp only [Ref.firstEntry] at h
      split at h
      · cases h
      · exact ih h
      · cases h
    | _ => cases h

end Mem

/-- **C148** If the semantics says that the call (with the right number of arguments) is an error, the C function reports a Scheme error: it does not return and does nothing undefined,
and everything still holds its datum. -/
theorem c148_error_partial {h : Heap} (F : FArith) {name : String} (hn : name ∈ listBuiltins) {args : List Obj} {us : List Ref.Val} (ha : HoldAll h args us)
    (harity : memCall F 0 name args ≠ none) (hv : Ref.stdAp name us = .error) :
    ∃ N, ∀ fuel, N ≤ fuel → ∃ m e h', memCall F fuel name args = some m ∧ m h = (.err e, h') ∧ ∀ w u, Holds h w u → Holds h' w u := by
  suffices hc : Errs F h name args by
    obtain ⟨m, hm, N, hN⟩ := hc
    refine ⟨N, fun fuel hf => ?_⟩
    obtain ⟨e, h', e1, e2⟩ := hN fuel hf
    exact ⟨m fuel, e, h', hm fuel, e1, fun w u hw => hw.mono e2⟩
  simp only [listBuiltins, List.mem_cons, List.not_mem_nil, or_false] at hn
  rcases hn with rfl | rfl | rfl | rfl | rfl | rfl | rfl | rfl | rfl | rfl | rfl | rfl | rfl | rfl | rfl | rfl | rfl | rfl | rfl | rfl | rfl | rfl | rfl | hn
  · -- cons
    have hl := arity2 ha rfl (fun _ => rfl) (fun _ _ _ _ => rfl) harity
    replace hv := binary_err hl hv
    obtain ⟨a, b, rfl, hv⟩ := hv
    cases hv
  · -- car
    have hl := arity1 ha rfl (fun _ _ _ => rfl) harity
    replace hv := unary_err hl hv
    obtain ⟨a, rfl, hv⟩ := hv
    obtain ⟨o, rfl, ho⟩ := hold1 ha
    refine ⟨_, fun _ => rfl, errs (car_error ho (fun x y hxy => ?_)).1 (Ext.refl h)⟩
    subst hxy
    cases hv
  · -- cdr
    have hl := arity1 ha rfl (fun _ _ _ => rfl) harity
    replace hv := unary_err hl hv
    obtain ⟨a, rfl, hv⟩ := hv
    obtain ⟨o, rfl, ho⟩ := hold1 ha
    refine ⟨_, fun _ => rfl, errs (car_error ho (fun x y hxy => ?_)).2.1 (Ext.refl h)⟩
    subst hxy
    cases hv
  · -- cadr
    have hl := arity1 ha rfl (fun _ _ _ => rfl) harity
    replace hv := unary_err hl hv
    obtain ⟨a, rfl, hv⟩ := hv
    obtain ⟨o, rfl, ho⟩ := hold1 ha
    cases a with
    | pair x y =>
      cases y <;> cases hv
      refine ⟨_, fun _ => rfl, errs (e := .typeError) (h' := h) ?_ (Ext.refl h)⟩
      cases hov : o.v with
      | list a =>
        rw [hov] at ho
        cases ho with
        | last hn hd hnx hu =>
          simp only [cadr, hov]
          rw [M.bind_ok (getNode_ok hn), hnx]; rfl
        | next _ _ _ _ hw => cases hw
        | dot _ _ _ _ _ _ _ h2 _ hw => 
          generalize Node.data _ = md at hw h2
          obtain ⟨i, mv⟩ := md
          cases hw; exact absurd rfl h2
      | _ => rw [hov] at ho; cases ho
    | _ => exact ⟨_, fun _ => rfl, errs (car_error ho (fun x y hxy => by cases hxy)).2.2 (Ext.refl h)⟩
  · -- cddr
    have hl := arity1 ha rfl (fun _ _ _ => rfl) harity
    replace hv := unary_err hl hv
    obtain ⟨a, rfl, hv⟩ := hv
    obtain ⟨o, rfl, ho⟩ := hold1 ha
    refine ⟨_, fun _ => rfl, ?_⟩
    cases a with
    | pair x y =>
      obtain ⟨r, h', e, hr, he⟩ := cdr_holds ho
      refine errs (e := .typeError) (h' := h') ?_ he
      simp only [cddr]
      rw [M.bind_ok e]
      exact (car_error hr (fun x y hxy => by subst hxy; cases hv)).2.1
    | _ =>
      refine errs (e := .typeError) (h' := h) ?_ (Ext.refl h)
      simp only [cddr]
      exact M.bind_err (car_error ho (fun x y hxy => by cases hxy)).2.1
  · -- caddr
    have hl := arity1 ha rfl (fun _ _ _ => rfl) harity
    replace hv := unary_err hl hv
    obtain ⟨a, rfl, hv⟩ := hv
    obtain ⟨o, rfl, ho⟩ := hold1 ha
    refine ⟨_, fun _ => rfl, ?_⟩
    cases a with
    | pair x y =>
      obtain ⟨r, h1, e1, hr, he1⟩ := cdr_holds ho
      cases y with
      | pair y z =>
        obtain ⟨r2, h2, e2, hr2, he2⟩ := cdr_holds hr
        refine errs (e := .typeError) (h' := h2) ?_ (he1.trans he2)
        simp only [caddr]
        rw [M.bind_ok e1, M.bind_ok e2]
        exact (car_error hr2 (fun x y hxy => by subst hxy; cases hv)).1
      | _ =>
        refine errs (e := .typeError) (h' := h1) ?_ he1
        simp only [caddr]
        rw [M.bind_ok e1]
        exact M.bind_err (car_error hr (fun x y hxy => by cases hxy)).2.1
    | _ =>
      refine errs (e := .typeError) (h' := h) ?_ (Ext.refl h)
      simp only [caddr]
      exact M.bind_err (car_error ho (fun x y hxy => by cases hxy)).2.1
  · -- list
    cases hv
  · -- length
    rw [ap_length] at hv
    have hl := arity1 ha rfl (fun _ _ _ => rfl) harity
    replace hv := unary_err hl hv
    obtain ⟨a, rfl, hv⟩ := hv
    repeat' split at hv
    all_goals cases hv
  · -- reverse
    rw [ap_reverse] at hv
    have hl := arity1 ha rfl (fun _ _ _ => rfl) harity
    replace hv := unary_err hl hv
    obtain ⟨a, rfl, hv⟩ := hv
    repeat' split at hv
    all_goals cases hv
  · -- append
    rw [ap_append] at hv
    dsimp only at hv
    split at hv <;> cases hv
  · -- list-tail
    rw [ap_list_tail] at hv
    have hl := arity2 ha rfl (fun _ => rfl) (fun _ _ _ _ => rfl) harity
    replace hv := binary_err hl hv
    obtain ⟨a, b, rfl, hv⟩ := hv
    repeat' split at hv
    all_goals cases hv
  · -- list-ref
    rw [ap_list_ref] at hv
    have hl := arity2 ha rfl (fun _ => rfl) (fun _ _ _ _ => rfl) harity
    replace hv := binary_err hl hv
    obtain ⟨a, b, rfl, hv⟩ := hv
    obtain ⟨o, p, rfl, ho, hp⟩ := hold2 ha
    refine ⟨_, fun _ => rfl, ?_⟩
    cases he : a.elems with
    | none => simp [he] at hv
    | some vs =>
      cases b with
      | num n =>
        simp only [he] at hv
        split at hv
        · exact ref_fails ho hp he (.inl (by assumption))
        · cases hg : vs[n.toNat]? with
          | none => exact ref_fails ho hp he (.inr hg)
          | some x => rw [hg] at hv; cases hv
      | _ => simp [he] at hv
  · -- list?
    rw [ap_listP] at hv
    have hl := arity1 ha rfl (fun _ _ _ => rfl) harity
    replace hv := unary_err hl hv
    obtain ⟨a, rfl, hv⟩ := hv
    repeat' split at hv
    all_goals cases hv
  · -- eq?
    rw [ap_eqP] at hv
    have hl := arity2 ha rfl (fun _ => rfl) (fun _ _ _ _ => rfl) harity
    replace hv := binary_err hl hv
    obtain ⟨a, b, rfl, hv⟩ := hv
    repeat' split at hv
    all_goals cases hv
  · -- eqv?
    rw [ap_eqvP] at hv
    have hl := arity2 ha rfl (fun _ => rfl) (fun _ _ _ _ => rfl) harity
    replace hv := binary_err hl hv
    obtain ⟨a, b, rfl, hv⟩ := hv
    repeat' split at hv
    all_goals cases hv
  · -- equal?
    rw [ap_equalP] at hv
    have hl := arity2 ha rfl (fun _ => rfl) (fun _ _ _ _ => rfl) harity
    replace hv := binary_err hl hv
    obtain ⟨a, b, rfl, hv⟩ := hv
    repeat' split at hv
    all_goals cases hv
  · -- memq
    rw [ap_memq] at hv
    have hl := arity2 ha rfl (fun _ => rfl) (fun _ _ _ _ => rfl) harity
    replace hv := binary_err hl hv
    obtain ⟨a, b, rfl, hv⟩ := hv
    repeat' split at hv
    all_goals first | cases hv | exact absurd hv no_tail
  · -- memv
    rw [ap_memv] at hv
    have hl := arity2 ha rfl (fun _ => rfl) (fun _ _ _ _ => rfl) harity
    replace hv := binary_err hl hv
    obtain ⟨a, b, rfl, hv⟩ := hv
    repeat' split at hv
    all_goals first | cases hv | exact absurd hv no_tail
  · -- member
    rw [ap_member] at hv
    have hl := arity2 ha rfl (fun _ => rfl) (fun _ _ _ _ => rfl) harity
    replace hv := binary_err hl hv
    obtain ⟨a, b, rfl, hv⟩ := hv
    repeat' split at hv
    all_goals first | cases hv | exact absurd hv no_tail
  · -- assq
    rw [ap_assq] at hv
    have hl := arity2 ha rfl (fun _ => rfl) (fun _ _ _ _ => rfl) harity
    replace hv := binary_err hl hv
    obtain ⟨a, b, rfl, hv⟩ := hv
    repeat' split at hv
    all_goals first | cases hv | exact absurd hv no_entry
  · -- assv
    rw [ap_assv] at hv
    have hl := arity2 ha rfl (fun _ => rfl) (fun _ _ _ _ => rfl) harity
    replace hv := binary_err hl hv
    obtain ⟨a, b, rfl, hv⟩ := hv
    repeat' split at hv
    all_goals first | cases hv | exact absurd hv no_entry
  · -- assoc
    rw [ap_assoc] at hv
    have hl := arity2 ha rfl (fun _ => rfl) (fun _ _ _ _ => rfl) harity
    replace hv := binary_err hl hv
    obtain ⟨a, b, rfl, hv⟩ := hv
    repeat' split at hv
    all_goals first | cases hv | exact absurd hv no_entry
  · -- acons
    rw [ap_acons] at hv
    have hl := arity3 ha rfl (fun _ => rfl) (fun _ _ => rfl) (fun _ _ _ _ _ => rfl) harity
    replace hv := ternary_err hl hv
    obtain ⟨a, b, c, rfl, hv⟩ := hv
    cases hv
  · -- the predicates
    rcases hn with rfl | rfl | rfl | rfl | rfl | rfl | rfl | rfl | rfl | rfl
    all_goals
      have hl := arity1 ha rfl (fun _ _ _ => rfl) harity
      replace hv := unary_err hl hv
      obtain ⟨a, rfl, hv⟩ := hv
      cases a <;> cases hv

theorem Mem.picks_hold {h : Heap} {os : List Obj} {us : List Ref.Val} (ho : HoldAll h os us) : ∀ {is : List Nat} {ws : List Ref.Val}, picks us is = some ws →
    ∃ as, picks os is = some as ∧ HoldAll h as ws := by
  intro is
  induction is with
  | nil => intro ws hw; cases hw; exact ⟨[], rfl, .nil⟩
  | cons i is ih =>
    intro ws hw
    simp only [picks] at hw
    cases hi : us[i]? with
    | none => simp [hi] at hw
    | some u =>
      obtain ⟨o, ho1, ho2⟩ := ho.get hi
      cases hr : picks us is with
      | none => simp [hr] at hw
      | some vs =>
        obtain ⟨as, ha1, ha2⟩ := ih hr
        simp only [hi, hr, Option.bind_some, Option.map_some] at hw
        cases hw
        exact ⟨o :: as, by simp [picks, ho1, ha1], .cons ho2 ha2⟩

/-- **C148** So any number of calls one after the other (each on given data or earlier results, in whatever way these share their nodes) computes what the semantics says, and the
results and the data stay what they are. -/
theorem c148_program_partial (F : FArith) : ∀ {ls : Lines} {h : Heap} {os : List Obj} {us vs : List Ref.Val}, (∀ l ∈ ls, l.1 ∈ listBuiltins) → HoldAll h os us →
    meaning ls us = .val vs → ∃ os' h', LinesRun (memCall F) ls os h os' h' ∧ HoldAll h' os' vs ∧ ∀ w u, Holds h w u → Holds h' w u := by
  intro ls
  induction ls with
  | nil =>
    intro h os us vs _ ho hm
    cases hm
    exact ⟨os, h, .done, ho, fun _ _ hw => hw⟩
  | cons l ls ih =>
    intro h os us vs hls ho hm
    obtain ⟨f, is⟩ := l
    simp only [meaning] at hm
    cases hp : picks us is with
    | none => simp [hp] at hm
    | some ws =>
      simp only [hp] at hm
      obtain ⟨as, ha1, ha2⟩ := Mem.picks_hold ho hp
      cases hf : Ref.stdAp f ws with
      | error => simp [hf] at hm
      | unknown => simp [hf] at hm
      | val v =>
        simp only [hf] at hm
        obtain ⟨N, hN⟩ := c148_value_partial F (hls (f, is) (List.mem_cons_self ..)) ha2 hf
        obtain ⟨m, r, h1, e1, e2, hr, hk⟩ := hN N (Nat.le_refl N)
        have hos : HoldAll h1 os us := by
          clear hm hp ha1 ha2 ih hls
          induction ho with
          | nil => exact .nil
          | cons hx _ ih => exact .cons (hk _ _ hx) ih
        obtain ⟨os', h', hrun, hh, hk'⟩ := ih (fun l hl => hls l (by simp [hl])) (hos.append (.cons hr .nil)) hm
        exact ⟨os', h', .line ha1 e1 e2 hrun, hh, fun w u hw => hk' w u (hk w u hw)⟩

/-! ## Cases -/

/-- A heap with the list `(1 "a")`, the pair `(x . 7)` and a list that shares the first: `((x . 7) 1 "a")`. -/
def Mem.demoHeap : Heap :=
  { nodes := [⟨⟨0, .num 1⟩, some 1, false⟩, ⟨⟨1, .str 0⟩, none, false⟩, ⟨⟨2, .sym [120]⟩, some 3, false⟩, ⟨⟨3, .num 7⟩, none, true⟩, ⟨⟨4, .list 2⟩, some 0, false⟩]
    vecs := []
    strs := [[97]]
    nextId := 5 }

example : HoldAll Mem.demoHeap [⟨10, .list 0⟩, ⟨11, .list 2⟩, ⟨12, .list 4⟩]
    [.pair (.num 1) (.pair (.str "a") .nil), .pair (.sym "x") (.num 7), .pair (.pair (.sym "x") (.num 7)) (.pair (.num 1) (.pair (.str "a") .nil))] := by
  have h1 : Holds Mem.demoHeap (.list 0) (.pair (.num 1) (.pair (.str "a") .nil)) :=
    .next (n := ⟨⟨0, .num 1⟩, some 1, false⟩) rfl rfl rfl (.num 1 (by decide)) (.last (n := ⟨⟨1, .str 0⟩, none, false⟩) rfl rfl rfl (.str 0 [97] rfl (by decide)))
  have h2 : Holds Mem.demoHeap (.list 2) (.pair (.sym "x") (.num 7)) :=
    .dot (n := ⟨⟨2, .sym [120]⟩, some 3, false⟩) (m := ⟨⟨3, .num 7⟩, none, true⟩) rfl rfl rfl rfl rfl rfl (by decide) (by decide) (.sym [120] (by decide) (by decide)) (.num 7 (by decide))
  exact .cons h1 (.cons h2 (.cons (.next (n := ⟨⟨4, .list 2⟩, some 0, false⟩) rfl rfl rfl h2 h1) .nil))

/-- `(define r (cons p l)) (define s (reverse r)) (append s r) (assq 'x (list p)) (equal? r t)` with the data of `demoHeap`. -/
example : meaning [("cons", [1, 0]), ("reverse", [3]), ("append", [4, 3]), ("list", [1]), ("equal?", [3, 2]), ("caddr", [5])]
    [.pair (.num 1) (.pair (.str "a") .nil), .pair (.sym "x") (.num 7), .pair (.pair (.sym "x") (.num 7)) (.pair (.num 1) (.pair (.str "a") .nil))] = .val
    [.pair (.num 1) (.pair (.str "a") .nil), .pair (.sym "x") (.num 7), .pair (.pair (.sym "x") (.num 7)) (.pair (.num 1) (.pair (.str "a") .nil)),
     .pair (.pair (.sym "x") (.num 7)) (.pair (.num 1) (.pair (.str "a") .nil)), .pair (.str "a") (.pair (.num 1) (.pair (.pair (.sym "x") (.num 7)) .nil)),
     .pair (.str "a") (.pair (.num 1) (.pair (.pair (.sym "x") (.num 7)) (.pair (.pair (.sym "x") (.num 7)) (.pair (.num 1) (.pair (.str "a") .nil))))),
     .pair (.pair (.sym "x") (.num 7)) .nil, .bool true, .pair (.sym "x") (.num 7)] := by rfl

/-- The error of `(car (cdr (cdr '(1 "a"))))`, and of `(list-ref '(1 "a") 2)`. -/
example : Ref.stdAp "caddr" [.pair (.num 1) (.pair (.str "a") .nil)] = .error ∧ Ref.stdAp "list-ref" [.pair (.num 1) (.pair (.str "a") .nil), .num 2] = .error := ⟨rfl, rfl⟩

end Pscm
