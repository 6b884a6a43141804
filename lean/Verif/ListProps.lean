import Verif.ListLemmas
/-!
# Properties C11–C19: pairs and lists

Vocabulary (`HeapSpec`): `ProperList h o as xs` — `o` is a proper list with elements `xs` whose pairs live at the
addresses `as`; `Ext h h'` — nothing that existed in `h` was changed.  `fuel` bounds the number of loop
iterations; every theorem holds for all sufficiently large fuel, with the bound given explicitly.
-/
namespace Pscm
open Spec

/-- Some floating-point arithmetic, for examples. -/
def exampleF' : FArith := ⟨fun a _ => a, fun a _ => a, fun a _ => a, fun a _ => a, fun a => a, fun a => a⟩

/-- A number object, for examples. -/
def exNum (n : Int) : Obj := ⟨1000 + n.toNat, .num n⟩

/-- A concrete heap for examples: `(1 2 3)` at 0, `(1 . 2)` at 3, a circular list at 5, the reader's representation of
`(1 . (2 3))` at 6, `(5)` at 8. -/
def exH : Heap where
  nodes := [⟨exNum 1, some 1, false⟩, ⟨exNum 2, some 2, false⟩, ⟨exNum 3, none, false⟩,
    ⟨exNum 1, some 4, false⟩, ⟨exNum 2, none, true⟩,
    ⟨exNum 7, some 5, false⟩,
    ⟨exNum 1, some 7, false⟩, ⟨⟨50, .list 1⟩, none, true⟩,
    ⟨exNum 5, none, false⟩]
  vecs := []
  strs := []
  nextId := 5000

def exL123 : Obj := ⟨60, .list 0⟩
def exDot : Obj := ⟨61, .list 3⟩
def exCirc : Obj := ⟨62, .list 5⟩
def exLit : Obj := ⟨63, .list 6⟩
def exL5 : Obj := ⟨64, .list 8⟩

theorem exL123_proper : ProperList exH exL123 [0, 1, 2] [exNum 1, exNum 2, exNum 3] :=
  ⟨some 0, [(0, ⟨exNum 1, some 1, false⟩), (1, ⟨exNum 2, some 2, false⟩), (2, ⟨exNum 3, none, false⟩)],
    rfl, ⟨rfl, rfl, rfl, rfl, rfl, rfl, rfl⟩, rfl, rfl, by decide⟩

theorem exL5_proper : ProperList exH exL5 [8] [exNum 5] :=
  ⟨some 8, [(8, ⟨exNum 5, none, false⟩)], rfl, ⟨rfl, rfl, rfl⟩, rfl, rfl, by decide⟩

theorem exDot_improper : ImproperList exH exDot [exNum 1] (exNum 2) :=
  ⟨some 3, [(3, ⟨exNum 1, some 4, false⟩)], 4, rfl, ⟨rfl, rfl, rfl, rfl, rfl⟩, by decide, rfl, by decide⟩

theorem exCirc_endless : Endless exH 5 (fun _ => 5) := ⟨rfl, fun _ => ⟨_, rfl, rfl⟩⟩

/-- `(1 . (2 3))` is, through `car` and `cdr`, the list `1 2 3`. -/
theorem exLit_sem : SemList exH exLit.v [exNum 1, exNum 2, exNum 3] :=
  .dot (a := 6) (b := 7) (n := ⟨exNum 1, some 7, false⟩) (m := ⟨⟨50, .list 1⟩, none, true⟩) rfl rfl rfl rfl
    (.next (n := ⟨exNum 2, some 2, false⟩) (m := ⟨exNum 3, none, false⟩) (a := 1) (b := 2) rfl rfl rfl rfl (.last (a := 2) (n := ⟨exNum 3, none, false⟩) rfl rfl))

/-! ## C11 — `cons`, `car`, `cdr` -/

/-- The chain of pairs that starts at `d` (if `d` is a pair) is finite, at most `n` nodes, and its first node is not
the flagged cdr cell of another pair. -/
def Spec.OrdinaryCdr (h : Heap) (d : Obj) (n : Nat) : Prop :=
  ∀ a, d.v = .list a → ∃ ns, Path h (some a) ns ∧ ns.length ≤ n ∧ ∀ m, h.nodes[a]? = some m → m.dotted = false

/-- C11: `(cons x d)` returns a new pair whose `car` is `x` and whose `cdr` has the contents of `d`; no existing
object changes.  For `d` not a pair the cdr is the very object `d` (or the empty list); for a pair `d` it is a
new `SCM` record for the same pair, which is why this is partial (see `c11_cdr_not_eq`). -/
theorem c11_cons_partial (h : Heap) (x d : Obj) (fuel : Nat) (hd : OrdinaryCdr h d fuel) :
    ∃ p h' d' h'', cons fuel x d h = (.ok p, h') ∧ p.v = .list h.nodes.length ∧ Ext h h' ∧
      car p h' = (.ok x, h') ∧ cdr p h' = (.ok d', h'') ∧ d'.v = d.v ∧ Ext h' h'' ∧
      (d.v.ty ≠ .list → d.v ≠ .nil → d' = d) ∧ (d.v.ty = .list → h.nextId ≤ d'.id) := by
  by_cases h1 : ∃ a, d.v = .list a
  · obtain ⟨a, hv⟩ := h1
    obtain ⟨ns, hp, hl, hnd⟩ := hd a hv
    obtain ⟨n, r, rfl, hn, hr⟩ := hp.cases_some
    have hext := ext_push2 h [⟨x, some a, false⟩] (h.nextId + 1) (by omega)
    refine ⟨_, _, ⟨h.nextId + 1, .list a⟩, _, cons_list hv hp hl, rfl, hext, ?_, ?_, hv.symm,
      ext_newId _ (h.nextId + 1 + 1) (by simp), ?_, ?_⟩
    · simp [car, M.bind_app, getNode]
    · simp only [cdr]
      rw [M.bind_ok (getNode_ok (n := ⟨x, some a, false⟩) (by simp))]
      simp only
      rw [M.bind_ok (getNode_ok (hext.get hn)), hnd n hn]
      rfl
    · simp [hv, Val.ty]
    · intro _; exact Nat.le_succ _
  · have h1' : ∀ a, d.v ≠ .list a := fun a ha => h1 ⟨a, ha⟩
    have hty : d.v.ty ≠ .list := by
      cases hv : d.v <;> simp [Val.ty]
      exact h1' _ hv
    by_cases h2 : d.v = .nil
    · refine ⟨_, _, Obj.nil, _, cons_nil h2, rfl, ext_push2 h _ _ (by omega), ?_, ?_, h2.symm, Ext.refl _,
        fun _ hn => absurd h2 hn, fun ht => absurd ht hty⟩
      · simp [car, M.bind_app, getNode]
      · simp [cdr, M.bind_app, getNode]
    · refine ⟨_, _, d, _, cons_atom h2 h1', rfl, ext_push2 h _ _ (by omega), ?_, ?_, rfl, Ext.refl _,
        fun _ _ => rfl, fun ht => absurd ht hty⟩
      · simp [car, M.bind_app, getNode]
      · simp [cdr, M.bind_app, getNode]

/-- C11 (violation): for every pair `d` that existed before, `(eq? (cdr (cons x d)) d)` is `#f`. -/
theorem c11_cdr_not_eq (F : FArith) (h : Heap) (x d : Obj) (fuel : Nat) (a : Addr) (hv : d.v = .list a)
    (hid : d.id < h.nextId) (hd : OrdinaryCdr h d fuel) :
    ∃ p h' d' h'', cons fuel x d h = (.ok p, h') ∧ cdr p h' = (.ok d', h'') ∧ eqP F h'' d' d = .ok false := by
  obtain ⟨p, h', d', h'', e1, e2, e3, e4, e5, e6, -, -, e7⟩ := c11_cons_partial h x d fuel hd
  refine ⟨p, h', d', h'', e1, e5, ?_⟩
  have hfr := e7 (by rw [hv]; rfl)
  have hne : d' ≠ d := by rintro rfl; omega
  unfold eqP
  rw [if_neg hne]
  simp [e6, hv]

/-- C11 (violation): `(cons x d)` on a circular `d` never returns. -/
theorem c11_circular_counterexample (x : Obj) : ∀ fuel, (cons fuel x exCirc exH).1 = .oof := by
  intro fuel
  have hl : ∀ fuel (h : Heap), h.nodes[5]? = some ⟨exNum 7, some 5, false⟩ → lastNode fuel 5 h = (.oof, h) := by
    intro fuel
    induction fuel with
    | zero => intro h _; rfl
    | succ fuel ih =>
      intro h hh
      simp only [lastNode]
      rw [M.bind_ok (getNode_ok hh)]
      exact ih h hh
  simp only [cons, makeList]
  rw [M.bind_ok (h := exH) (a := exH.nodes.length) (h' := { exH with nodes := exH.nodes ++ [⟨x, none, false⟩] }) rfl]
  simp only [exCirc]
  rw [M.bind_ok (setNode_last exH _ _)]
  rw [M.bind_oof (hl fuel _ rfl)]

/-- C11 (violation): the tail `(list-tail '(1 . 2) 1)` is a pair; consing onto it and taking the cdr gives `2`. -/
theorem c11_flagged_counterexample :
    ∃ d h1, listTail 5 exDot (exNum 1) exH = (.ok d, h1) ∧ d.v = .list 4 ∧
      ∃ p h2 e h3, cons 5 (exNum 9) d h1 = (.ok p, h2) ∧ cdr p h2 = (.ok e, h3) ∧ e = exNum 2 := by
  refine ⟨_, _, rfl, rfl, _, _, _, _, rfl, rfl, rfl⟩

example : OrdinaryCdr exH exL123 3 := by
  intro a ha
  cases ha
  exact ⟨[(0, ⟨exNum 1, some 1, false⟩), (1, ⟨exNum 2, some 2, false⟩), (2, ⟨exNum 3, none, false⟩)],
    ⟨rfl, rfl, rfl, rfl, rfl, rfl, rfl⟩, by decide, fun m hm => by cases hm; rfl⟩

/-! ## C12 — `set-car!`, `set-cdr!` -/

/-- C12: `(set-car! p x)`: `car` of `p` becomes `x`, the cdr pointer stays, and no other node, vector or string
changes. -/
theorem c12_set_car (h : Heap) (p x : Obj) (a : Addr) (n : Node) (hp : p.v = .list a) (hn : h.nodes[a]? = some n) :
    ∃ h', setCar p x h = (.ok Obj.none, h') ∧ car p h' = (.ok x, h') ∧
      (∀ b, b ≠ a → h'.nodes[b]? = h.nodes[b]?) ∧ h'.vecs = h.vecs ∧ h'.strs = h.strs ∧
      h'.nodes.length = h.nodes.length ∧
      -- observably: the car of every other pair, and the cdr of every pair whose cdr cell is not `a` itself
      (∀ q b, q.v = .list b → b ≠ a → (car q h').1 = (car q h).1) ∧
      (n.dotted = false → ∀ q, (cdr q h').1 = (cdr q h).1) := by
  have hlt := getElem?_lt hn
  refine ⟨{ h with nodes := h.nodes.set a { n with data := x } }, ?_, ?_, ?_, rfl, rfl, by simp, ?_, ?_⟩
  · simp only [setCar, hp]
    rw [M.bind_ok (getNode_ok hn)]
    simp [M.bind_app, setNode, hlt]
  · simp [car, hp, M.bind_app, getNode, hlt]
  · intro b hb
    simp [List.getElem?_set_ne (Ne.symm hb)]
  · intro q b hq hb
    simp [car, hq, M.bind_app, getNode, List.getElem?_set_ne (Ne.symm hb)]
    cases h.nodes[b]? <;> simp
  · intro hnd q
    have key : ∀ b : Nat, ((h.nodes.set a { n with data := x })[b]?).map (fun m : Node => (m.next, m.dotted)) =
        (h.nodes[b]?).map (fun m : Node => (m.next, m.dotted)) := by
      intro b
      by_cases hb : b = a
      · subst hb; rw [List.getElem?_set_self hlt, hn]; rfl
      · rw [List.getElem?_set_ne (Ne.symm hb)]
    have key2 : ∀ (b : Nat) m, (h.nodes.set a { n with data := x })[b]? = some m → m.dotted = true →
        h.nodes[b]? = some m := by
      intro b m hm hd
      by_cases hb : b = a
      · subst hb
        rw [List.getElem?_set_self hlt] at hm
        cases hm
        simp [hnd] at hd
      · rwa [List.getElem?_set_ne (Ne.symm hb)] at hm
    unfold cdr
    cases hq : q.v <;> try rfl
    rename_i b
    simp only [M.bind_app, getNode]
    have k1 := key b
    cases h1 : (h.nodes.set a { n with data := x })[b]? with
    | none =>
      rw [h1] at k1
      cases h2 : h.nodes[b]? with
      | none => rfl
      | some m => rw [h2] at k1; simp at k1
    | some m' =>
      rw [h1] at k1
      cases h2 : h.nodes[b]? with
      | none => rw [h2] at k1; simp at k1
      | some m =>
        rw [h2] at k1
        simp at k1
        simp only [k1.1]
        cases hnx : m.next with
        | none => rfl
        | some c =>
          have k2 := key c
          simp only [M.bind_app, getNode]
          cases h3 : (h.nodes.set a { n with data := x })[c]? with
          | none =>
            rw [h3] at k2
            cases h4 : h.nodes[c]? with
            | none => rfl
            | some m => rw [h4] at k2; simp at k2
          | some w' =>
            rw [h3] at k2
            cases h4 : h.nodes[c]? with
            | none => rw [h4] at k2; simp at k2
            | some w =>
              rw [h4] at k2
              simp at k2
              simp only [k2.2]
              cases hwd : w.dotted with
              | false => simp [newObj]
              | true =>
                have := key2 c w' h3 (by rw [k2.2, hwd])
                rw [h4] at this
                cases this
                simp

/-- C12: `(set-cdr! p x)`: the cdr of `p` has the contents of `x` (for `x` a pair: provided its node is not a flagged
cdr cell), the car of `p` is unchanged, and no other existing node changes. -/
theorem c12_set_cdr (h : Heap) (p x : Obj) (a : Addr) (n : Node) (hp : p.v = .list a) (hn : h.nodes[a]? = some n)
    (hx : ∀ b, x.v = .list b → ∃ m, h.nodes[b]? = some m ∧ m.dotted = false) :
    ∃ h' d' h'', setCdr p x h = (.ok Obj.none, h') ∧ cdr p h' = (.ok d', h'') ∧ d'.v = x.v ∧
      (x.v.ty ≠ .list → x.v ≠ .nil → d' = x) ∧ car p h' = (.ok n.data, h') ∧
      (∀ b, b ≠ a → b < h.nodes.length → h'.nodes[b]? = h.nodes[b]?) ∧ h'.vecs = h.vecs ∧ h'.strs = h.strs := by
  have hlt := getElem?_lt hn
  have hsetn : ∀ (nx : Option Addr), setNode a { n with next := nx } h =
      (.ok (), { h with nodes := h.nodes.set a { n with next := nx } }) := by
    intro nx; simp [setNode, hlt]
  cases hv : x.v with
  | list b =>
    obtain ⟨m, hm, hmd⟩ := hx b hv
    refine ⟨{ h with nodes := h.nodes.set a { n with next := some b } }, ⟨h.nextId, .list b⟩,
      { h with nodes := h.nodes.set a { n with next := some b }, nextId := h.nextId + 1 }, ?_, ?_, rfl,
      by simp [Val.ty], ?_, ?_, rfl, rfl⟩
    · simp only [setCdr, hp]
      rw [M.bind_ok (getNode_ok hn)]
      simp only [hv]
      rw [M.bind_ok (hsetn _)]
      rfl
    · have hb : ∃ m', (h.nodes.set a { n with next := some b })[b]? = some m' ∧ m'.dotted = false := by
        by_cases hba : b = a
        · subst hba
          rw [hn] at hm; cases hm
          exact ⟨_, List.getElem?_set_self hlt, hmd⟩
        · exact ⟨m, by rw [List.getElem?_set_ne (Ne.symm hba)]; exact hm, hmd⟩
      obtain ⟨m', hm', hmd'⟩ := hb
      simp only [cdr, hp]
      rw [M.bind_ok (h' := { h with nodes := h.nodes.set a { n with next := some b } })
        (getNode_ok (n := { n with next := some b }) (List.getElem?_set_self hlt))]
      simp only
      rw [M.bind_ok (getNode_ok (h := { h with nodes := h.nodes.set a { n with next := some b } }) hm')]
      rw [hmd']
      rfl
    · simp [car, hp, M.bind_app, getNode, hlt]
    · intro c hc _
      simp [List.getElem?_set_ne (Ne.symm hc)]
  | nil =>
    refine ⟨{ h with nodes := h.nodes.set a { n with next := none } }, Obj.nil,
      { h with nodes := h.nodes.set a { n with next := none } }, ?_, ?_, rfl, by simp, ?_, ?_, rfl, rfl⟩
    · simp only [setCdr, hp]
      rw [M.bind_ok (getNode_ok hn)]
      simp only [hv]
      rw [M.bind_ok (hsetn _)]
      rfl
    · simp only [cdr, hp]
      rw [M.bind_ok (h' := { h with nodes := h.nodes.set a { n with next := none } })
        (getNode_ok (n := { n with next := none }) (List.getElem?_set_self hlt))]
      rfl
    · simp [car, hp, M.bind_app, getNode, hlt]
    · intro c hc _
      simp [List.getElem?_set_ne (Ne.symm hc)]
  | _ =>
    have hne : a ≠ h.nodes.length := by omega
    refine ⟨{ h with nodes := (h.nodes ++ [(⟨x, none, true⟩ : Node)]).set a { n with next := some h.nodes.length } }, x,
      { h with nodes := (h.nodes ++ [(⟨x, none, true⟩ : Node)]).set a { n with next := some h.nodes.length } },
      ?_, ?_, hv, by intros; trivial, ?_, ?_, rfl, rfl⟩
    · simp only [setCdr, hp]
      rw [M.bind_ok (getNode_ok hn)]
      simp only [hv]
      have hl2 : a < (h.nodes ++ [(⟨x, none, true⟩ : Node)]).length := by simp; omega
      simp only [M.bind_app, allocNode, setNode, if_pos hl2]
      rfl
    · have g1 : ((h.nodes ++ [(⟨x, none, true⟩ : Node)]).set a { n with next := some h.nodes.length })[a]? =
          some { n with next := some h.nodes.length } := List.getElem?_set_self (by simp; omega)
      have g2 : ((h.nodes ++ [(⟨x, none, true⟩ : Node)]).set a { n with next := some h.nodes.length })[h.nodes.length]? =
          some ⟨x, none, true⟩ := by rw [List.getElem?_set_ne hne]; simp
      simp only [cdr, hp, M.bind_app, getNode, g1, g2]
      rfl
    · have g1 : ((h.nodes ++ [(⟨x, none, true⟩ : Node)]).set a { n with next := some h.nodes.length })[a]? =
          some { n with next := some h.nodes.length } := List.getElem?_set_self (by simp; omega)
      simp only [car, hp, M.bind_app, getNode, g1]
      rfl
    · intro c hc hcl
      show ((h.nodes ++ [_]).set a _)[c]? = _
      rw [List.getElem?_set_ne (Ne.symm hc), List.getElem?_append_left hcl]

/-- C12: on anything that is not a pair both are Scheme errors and change nothing. -/
theorem c12_non_pair (h : Heap) (p x : Obj) (hp : p.v.ty ≠ .list) :
    setCar p x h = (.err .evalError, h) ∧ setCdr p x h = (.err .evalError, h) := by
  cases hv : p.v <;> simp_all [setCar, setCdr, Val.ty]

example : ∃ n, exH.nodes[0]? = some n ∧ exL123.v = .list 0 ∧
    (∀ b, exL5.v = .list b → ∃ m, exH.nodes[b]? = some m ∧ m.dotted = false) :=
  ⟨_, rfl, rfl, fun b hb => by cases hb; exact ⟨_, rfl, rfl⟩⟩

/-! ## C13 — `length` -/

/-- C13: the length of a proper list (fewer than 2^31 elements) is its number of elements; nothing changes. -/
theorem c13_length_partial (h : Heap) (o : Obj) (as : List Addr) (xs : List Obj) (fuel : Nat)
    (hl : ProperList h o as xs) (hn : xs.length < 2 ^ 31) (hf : xs.length ≤ fuel) :
    ∃ r h', length fuel o h = (.ok r, h') ∧ r.v = .num xs.length ∧ Ext h h' := by
  obtain ⟨p, ns, hs, hp, -, hx, -⟩ := hl
  have hlen : ns.length = xs.length := by rw [← hx]; simp
  have hext := ext_newId h (h.nextId + 1) (by omega)
  cases hv : o.v with
  | nil =>
    rw [hv] at hs; cases hs
    cases ns with
    | cons y ys => exact absurd hp.1 (by simp)
    | nil =>
      simp at hx; subst hx
      exact ⟨⟨h.nextId, .num 0⟩, _, by simp only [length, hv, newObj], rfl, hext⟩
  | list a =>
    rw [hv] at hs; cases hs
    refine ⟨⟨h.nextId, .num (0 + ns.length)⟩, { h with nextId := h.nextId + 1 }, ?_, by simp [hlen], hext⟩
    simp only [length, hv]
    rw [M.bind_ok (lengthLoop_path (c := 0) hp (by omega) (by omega) (by rw [hlen]; omega))]
    rfl
  | _ => rw [hv] at hs; cases hs

/-- C13: `length` of anything that is neither a pair nor the empty list is a Scheme error. -/
theorem c13_length_non_list (h : Heap) (o : Obj) (fuel : Nat) (h1 : o.v.ty ≠ .list) (h2 : o.v ≠ .nil) :
    length fuel o h = (.err .evalError, h) := by
  cases hv : o.v <;> simp_all [length, Val.ty]

/-- C13 (violation): `length` of every improper list is not an error but one more than its number of cars. -/
theorem c13_length_improper (h : Heap) (o t : Obj) (xs : List Obj) (fuel : Nat)
    (hl : ImproperList h o xs t) (hn : xs.length + 1 < 2 ^ 31) (hf : xs.length + 1 ≤ fuel) :
    ∃ r h', length fuel o h = (.ok r, h') ∧ r.v = .num (xs.length + 1) := by
  obtain ⟨p, ns, b, hs, hp, hne, hx, -⟩ := hl
  have hlen : (ns ++ [(b, (⟨t, none, true⟩ : Node))]).length = xs.length + 1 := by rw [← hx]; simp
  cases hv : o.v with
  | nil =>
    rw [hv] at hs; cases hs
    cases ns with
    | cons y ys => exact absurd hp.1 (by simp)
    | nil => exact absurd rfl hne
  | list a =>
    rw [hv] at hs; cases hs
    refine ⟨⟨h.nextId, .num (0 + (xs.length + 1 : Nat))⟩, { h with nextId := h.nextId + 1 }, ?_, by simp⟩
    simp only [length, hv]
    rw [M.bind_ok (lengthLoop_path (c := 0) hp (by omega) (by omega) (by rw [hlen]; omega)), hlen]
    rfl
  | _ => rw [hv] at hs; cases hs

/-- C13 (violation): the literal `(1 . (2 3))` is the list `1 2 3` for `car`/`cdr`, but its `length` is 2. -/
theorem c13_counterexample : SemList exH exLit.v [exNum 1, exNum 2, exNum 3] ∧
    ∃ r h', length 5 exLit exH = (.ok r, h') ∧ r.v = .num 2 :=
  ⟨exLit_sem, _, _, rfl, rfl⟩

example : ∃ r h', length 3 exL123 exH = (.ok r, h') ∧ r.v = .num 3 ∧ Ext exH h' := by
  simpa using c13_length_partial exH exL123 _ _ 3 exL123_proper (by decide) (by decide)

/-! ## C14 — `reverse` -/

/-- C14: `(reverse l)` of a proper list is a proper list of new pairs with the elements in reverse order; `l` (and
everything else) is unchanged. -/
theorem c14_reverse_partial (h : Heap) (o : Obj) (as : List Addr) (xs : List Obj) (fuel : Nat)
    (hl : ProperList h o as xs) (hf : xs.length ≤ fuel) :
    ∃ r h' bs, reverse fuel o h = (.ok r, h') ∧ ProperList h' r bs xs.reverse ∧ Ext h h' ∧
      (∀ b ∈ bs, b ∉ as) ∧ ProperList h' o as xs := by
  obtain ⟨p, ns, hs, hp, ha, hx, hnd⟩ := hl
  have hlen : ns.length = xs.length := by rw [← hx]; simp
  cases hv : o.v with
  | nil =>
    rw [hv] at hs; cases hs
    cases ns with
    | cons y ys => exact absurd hp.1 (by simp)
    | nil =>
      simp at hx ha; subst hx ha
      exact ⟨Obj.nil, h, [], by simp [reverse, hv], ⟨none, [], rfl, rfl, rfl, rfl, by simp⟩, Ext.refl h, by simp,
        ⟨none, [], by rw [hv]; rfl, rfl, rfl, rfl, by simp⟩⟩
  | list a =>
    rw [hv] at hs; cases hs
    obtain ⟨q, h', ks, e1, e2, e3, e4, e5, e6⟩ := reverseLoop_path (fuel := fuel) (res := none) (ms := [])
      (Ext.refl h) hp (by omega) rfl (by simp)
    have hq : ∃ b, q = some b := by
      cases q with
      | some b => exact ⟨b, rfl⟩
      | none =>
        cases ks with
        | cons y ys => exact absurd e3.1 (by simp)
        | nil =>
          obtain ⟨n, r, rfl, -, -⟩ := hp.cases_some
          simp at e4
    obtain ⟨b, rfl⟩ := hq
    have hext2 := ext_newId h' (h'.nextId + 1) (by omega)
    refine ⟨⟨h'.nextId, .list b⟩, { h' with nextId := h'.nextId + 1 }, ks.map (·.1), ?_,
      ⟨some b, ks, rfl, e3.mono hext2, rfl, ?_, fun x hx => (e5 x hx).1⟩, e2.trans hext2, ?_, ?_⟩
    · simp only [reverse, hv]
      rw [M.bind_ok e1]
      rfl
    · rw [e4, hx]; simp
    · intro c hc hca
      obtain ⟨x, hx1, rfl⟩ := List.mem_map.1 hc
      have := (e5 x hx1).2
      rw [← ha] at hca
      obtain ⟨y, hy, hyx⟩ := List.mem_map.1 hca
      have := hp.lt y hy
      omega
    · exact ⟨some a, ns, by rw [hv]; rfl, hp.mono (e2.trans hext2), ha, hx, hnd⟩
  | _ => rw [hv] at hs; cases hs

/-- C14: reversing twice gives a list with the original elements. -/
theorem c14_reverse_twice (h : Heap) (o : Obj) (as : List Addr) (xs : List Obj) (fuel : Nat)
    (hl : ProperList h o as xs) (hf : xs.length ≤ fuel) :
    ∃ r h' r2 h'' bs, reverse fuel o h = (.ok r, h') ∧ reverse fuel r h' = (.ok r2, h'') ∧
      ProperList h'' r2 bs xs := by
  obtain ⟨r, h', bs, e1, l1, -, -, -⟩ := c14_reverse_partial h o as xs fuel hl hf
  obtain ⟨r2, h'', cs, e2, l2, -, -, -⟩ := c14_reverse_partial h' r bs xs.reverse fuel l1 (by simpa using hf)
  exact ⟨r, h', r2, h'', cs, e1, e2, by simpa using l2⟩

/-- C14 (violation): the literal `(1 . (2 3))`, a list of three elements for `car`/`cdr`, is reversed to a list of two. -/
theorem c14_counterexample : SemList exH exLit.v [exNum 1, exNum 2, exNum 3] ∧
    ∃ r h', reverse 5 exLit exH = (.ok r, h') ∧ ProperList h' r [10, 9] [⟨50, .list 1⟩, exNum 1] :=
  ⟨exLit_sem, _, _, rfl, some 10, [(10, ⟨⟨50, .list 1⟩, some 9, false⟩), (9, ⟨exNum 1, none, false⟩)], rfl,
    ⟨rfl, rfl, rfl, rfl, rfl⟩, rfl, rfl, by decide⟩

example : ∃ r h' bs, reverse 3 exL123 exH = (.ok r, h') ∧ ProperList h' r bs [exNum 3, exNum 2, exNum 1] := by
  obtain ⟨r, h', bs, e, l, -⟩ := c14_reverse_partial exH exL123 _ _ 3 exL123_proper (by decide)
  exact ⟨r, h', bs, e, l⟩

end Pscm
