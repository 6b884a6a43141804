import Verif.ListProps
/-!
# Properties C15–C19: `append`, `list-ref`/`list-head`/`list-tail`, `last-pair`, `memq`…, `list?`
-/
namespace Pscm
open Spec

/-! ## C15 — `append` -/

/-- The objects are proper lists with the given element sequences. -/
def Spec.ProperLists (h : Heap) : List Obj → List (List Obj) → Prop
  | [], [] => True
  | o :: os, xs :: xss => (∃ as, ProperList h o as xs) ∧ ProperLists h os xss
  | _, _ => False

theorem Spec.ProperList.cases {h : Heap} {o as xs} (hl : ProperList h o as xs) :
    (o.v = .nil ∧ as = [] ∧ xs = []) ∨
    (∃ a ns, o.v = .list a ∧ Path h (some a) ns ∧ ns.map (·.1) = as ∧ ns.map (·.2.data) = xs ∧
      (∀ x ∈ ns, x.2.dotted = false) ∧ ns.length = xs.length ∧ as.length = xs.length) := by
  obtain ⟨p, ns, hs, hp, ha, hx, hd⟩ := hl
  cases hv : o.v with
  | nil =>
    rw [hv] at hs; cases hs
    cases ns with
    | cons y ys => exact absurd hp.1 (by simp)
    | nil => left; exact ⟨rfl, ha.symm, hx.symm⟩
  | list a =>
    rw [hv] at hs; cases hs
    right
    exact ⟨a, ns, rfl, hp, ha, hx, hd, by rw [← hx]; simp, by rw [← hx, ← ha]; simp⟩
  | _ => rw [hv] at hs; cases hs

theorem appendArgs_proper {h0 : Heap} {fuel : Nat} {ld : Bool} (more : List Obj) (hmore : ld = true → more ≠ []) :
    ∀ {args : List Obj} {xss h b acc}, BInv h0 h b acc → ProperLists h0 args xss → (∀ xs ∈ xss, xs.length < fuel) →
    ∃ b' h', appendArgs fuel ld b (args ++ more) h = appendArgs fuel ld b' more h' ∧
      BInv h0 h' b' (acc ++ xss.flatten) ∧ h'.nextId = h.nextId
  | [], [], h, b, acc, i, _, _ => ⟨b, h, rfl, by simpa using i, rfl⟩
  | o :: os, [], _, _, _, _, hl, _ => by simp [ProperLists] at hl
  | [], _ :: _, _, _, _, _, hl, _ => by simp [ProperLists] at hl
  | o :: os, xs :: xss, h, b, acc, i, ⟨⟨as, hl⟩, hls⟩, hf => by
    have hfx : xs.length < fuel := hf xs (by simp)
    have hfr : ∀ ys ∈ xss, ys.length < fuel := fun ys hy => hf ys (by simp [hy])
    rcases hl.cases with ⟨hv, -, rfl⟩ | ⟨a, ns, hv, hp, -, hx, -, hlen, -⟩
    · obtain ⟨b', h', e, i', k⟩ := appendArgs_proper more hmore (args := os) i hls hfr
      refine ⟨b', h', ?_, by simpa using i', k⟩
      simp only [List.cons_append, appendArgs, hv]
      exact e
    · obtain ⟨b1, h1, e1, i1, k1⟩ := i.pushChain (fuel := fuel) hp (by omega)
      obtain ⟨b', h', e, i', k⟩ := appendArgs_proper more hmore (args := os) i1 hls hfr
      refine ⟨b', h', ?_, by simpa [hx] using i', by rw [k, k1]⟩
      simp only [List.cons_append, appendArgs, hv]
      have hcond : ((os ++ more).isEmpty && ld) = false := by
        cases ld with
        | false => simp
        | true => simp [hmore rfl]
      rw [hcond]
      simp only [Bool.false_eq_true, if_false]
      rw [M.bind_ok e1]
      exact e

theorem lastCdr_proper {h : Heap} {o as xs fuel} (hl : ProperList h o as xs) (hf : xs.length < fuel) :
    lastCdr fuel o h = (.ok none, h) := by
  rcases hl.cases with ⟨hv, -, rfl⟩ | ⟨a, ns, hv, hp, -, hx, hd, hlen, -⟩
  · simp [lastCdr, hv]
  · obtain ⟨n, r, e, hn, hr⟩ := hp.cases_some
    obtain ⟨y, hy, hlast⟩ := lastNode_path (fuel := fuel) hp (by omega)
    have hyd := hd y (List.mem_of_getLast? hy)
    have hyg := hp.get y (List.mem_of_getLast? hy)
    have : isDottedPair fuel a h = (.ok false, h) := by
      simp only [isDottedPair]
      rw [M.bind_ok (getNode_ok hn)]
      cases n.next with
      | none => rfl
      | some c =>
        simp only
        rw [M.bind_ok hlast, M.bind_ok (getNode_ok hyg), hyd]
        rfl
    simp only [lastCdr, hv]
    rw [M.bind_ok this]
    rfl

theorem Spec.ProperLists.getLast {h : Heap} : ∀ {os xss} (hne : os ≠ []), ProperLists h os xss →
    ∃ as xs, xs ∈ xss ∧ ProperList h (os.getLast hne) as xs
  | [], _, hne, _ => absurd rfl hne
  | [o], xs :: [], _, ⟨⟨as, hl⟩, _⟩ => ⟨as, xs, by simp, hl⟩
  | [o], _ :: _ :: _, _, ⟨_, hl⟩ => by simp [ProperLists] at hl
  | o :: o2 :: os, xs :: xss, _, ⟨_, hls⟩ => by
    obtain ⟨as, ys, hy, hl⟩ := Spec.ProperLists.getLast (os := o2 :: os) (by simp) hls
    exact ⟨as, ys, by simp [hy], by rwa [List.getLast_cons (by simp)]⟩
  | _ :: _, [], _, hl => by simp [ProperLists] at hl

/-- The general case of `append`, after the shortcuts for few arguments. -/
theorem append_two (fuel : Nat) (x y : Obj) (rest : List Obj) : append fuel (x :: y :: rest) =
    (if x.v = .nil ∧ rest = [] then pure y
    else do
      let lc ← lastCdr fuel ((y :: rest).getLast (by simp))
      let b ← appendArgs fuel lc.isSome Builder.empty (x :: y :: rest)
      match lc with
      | some o => do
        let a ← allocNode ⟨o, none, true⟩
        match b.tail with
        | none => newObj (.list a)
        | some t => do
          let n ← getNode t
          setNode t { n with next := some a }
          wrapList b.head
      | none => wrapList b.head : M Obj) := rfl

/-- C15: `(append l …)` on proper lists is a proper list of the concatenated elements; the arguments (and everything
else) are unchanged. -/
theorem c15_append_partial (h : Heap) (args : List Obj) (xss : List (List Obj)) (fuel : Nat)
    (hl : ProperLists h args xss) (hf : ∀ xs ∈ xss, xs.length < fuel) :
    ∃ r h' as, append fuel args h = (.ok r, h') ∧ ProperList h' r as xss.flatten ∧ Ext h h' := by
  match args, xss, hl with
  | [], [], _ => exact ⟨Obj.nil, h, [], rfl, ⟨none, [], rfl, rfl, rfl, rfl, by simp⟩, Ext.refl h⟩
  | [o], [xs], ⟨⟨as, hl⟩, _⟩ => exact ⟨o, h, as, rfl, by simpa using hl, Ext.refl h⟩
  | [o], _ :: _ :: _, ⟨_, hl⟩ => simp [ProperLists] at hl
  | o :: o2 :: os, xs :: xss', hall =>
    obtain ⟨⟨as, hl⟩, hls⟩ := hall
    by_cases hc : o.v = .nil ∧ os = []
    · obtain ⟨hv, rfl⟩ := hc
      have hxs : xs = [] := by
        rcases hl.cases with ⟨-, -, rfl⟩ | ⟨a, ns, hv', -⟩
        · rfl
        · rw [hv] at hv'; cases hv'
      subst hxs
      match xss', hls with
      | [ys], ⟨⟨bs, hl2⟩, _⟩ =>
        exact ⟨o2, h, bs, by simp [append, hv], by simpa using hl2, Ext.refl h⟩
      | _ :: _ :: _, ⟨_, hl2⟩ => simp [ProperLists] at hl2
    · obtain ⟨as', ys, hy, hlast⟩ := hls.getLast (os := o2 :: os) (by simp)
      have hlc := lastCdr_proper (fuel := fuel) hlast (hf ys (by simp [hy]))
      obtain ⟨b, h1, e1, i1, -⟩ := appendArgs_proper (ld := false) [] (by simp) (BInv.empty h)
        (args := o :: o2 :: os) (xss := xs :: xss') ⟨⟨as, hl⟩, hls⟩ hf
      obtain ⟨r, h', bs, e2, he, hp, -⟩ := i1.finish
      refine ⟨r, h', bs, ?_, by simpa using hp, he⟩
      simp only [append, if_neg hc]
      rw [M.bind_ok hlc]
      simp only [Option.isSome_none, List.append_nil] at e1 ⊢
      rw [M.bind_ok (a := b) (h' := h1) (by rw [e1]; rfl)]
      exact e2
  | _ :: _, [], hl => simp [ProperLists] at hl
  | [], _ :: _, hl => simp [ProperLists] at hl

/-- C15, what happens when the last argument is an improper list `(y … . t)`: the result ends in `t`, but of the
cars of the last argument only the first is kept.  So the result is the one R5RS asks for exactly when the last
argument has a single car. -/
theorem c15_append_improper (h : Heap) (front : List Obj) (xss : List (List Obj)) (l t y : Obj) (ys : List Obj)
    (fuel : Nat) (hl : ProperLists h front xss) (hne : front ≠ []) (hnn : ∀ o, front = [o] → o.v ≠ .nil)
    (hi : ImproperList h l (y :: ys) t) (hf : ∀ xs ∈ xss, xs.length < fuel) (hf2 : ys.length + 2 < fuel) :
    ∃ r h', append fuel (front ++ [l]) h = (.ok r, h') ∧ ImproperList h' r (xss.flatten ++ [y]) t ∧ Ext h h' := by
  obtain ⟨p, ns, b, hs, hp, hns, hx, hd⟩ := hi
  have hlv : ∃ a, l.v = .list a ∧ p = some a := by
    cases hv : l.v with
    | list a => rw [hv] at hs; cases hs; exact ⟨a, rfl, rfl⟩
    | nil =>
      rw [hv] at hs; cases hs
      cases ns with
      | cons y ys => exact absurd hp.1 (by simp)
      | nil => exact absurd rfl hns
    | _ => rw [hv] at hs; cases hs
  obtain ⟨a, hv, rfl⟩ := hlv
  have hlen : ns.length = ys.length + 1 := by
    have := congrArg List.length hx; simpa using this
  obtain ⟨n, r, e, hn, hr⟩ := hp.cases_some
  have hndata : n.data = y := by
    cases ns with
    | nil => exact absurd rfl hns
    | cons z zs => simp at e hx; rw [e.1] at hx; exact hx.1
  have hnnext : ∃ c, n.next = some c := by
    cases hnx : n.next with
    | some c => exact ⟨c, rfl⟩
    | none =>
      rw [hnx] at hr
      cases r with
      | cons z zs => exact absurd hr.1 (by simp)
      | nil =>
        have := congrArg List.length e
        simp [hlen] at this
  obtain ⟨c, hnx⟩ := hnnext
  obtain ⟨z, hz, hlast⟩ := lastNode_path (fuel := fuel) hp (by simp [hlen]; omega)
  have hzz : z = (b, ⟨t, none, true⟩) := by simpa using hz.symm
  subst hzz
  have hbg := hp.get (b, ⟨t, none, true⟩) (by simp)
  have hlc : lastCdr fuel l h = (.ok (some t), h) := by
    have hdp : isDottedPair fuel a h = (.ok true, h) := by
      simp only [isDottedPair]
      rw [M.bind_ok (getNode_ok hn), hnx]
      simp only
      rw [M.bind_ok hlast, M.bind_ok (getNode_ok hbg)]
      rfl
    simp only [lastCdr, hv]
    rw [M.bind_ok hdp]
    simp only [if_true]
    rw [M.bind_ok hlast, M.bind_ok (getNode_ok hbg)]
    rfl
  obtain ⟨b1, h1, e1, i1, -⟩ := appendArgs_proper (ld := true) [l] (by simp) (BInv.empty h) hl hf
  obtain ⟨b2, h2, e2, i2, k2⟩ := i1.push y
  obtain ⟨e0, ms, hms, hmx, hmd, hmge, htl⟩ := i2
  have hall : appendArgs fuel true Builder.empty (front ++ [l]) h = (.ok b2, h2) := by
    rw [e1]
    simp only [appendArgs, hv, List.isEmpty_nil, Bool.and_self, if_true]
    rw [M.bind_ok (a := b2) (h' := h2)]
    · rfl
    · rw [M.bind_ok (getNode_ok (i1.1.get hn)), hndata]
      exact e2
  rcases List.eq_nil_or_concat ms with rfl | ⟨ks, ⟨tl, m⟩, rfl⟩
  · simp at hmx
  simp only [List.concat_eq_append] at *
  have htl' : b2.tail = some tl := by simpa using htl
  have hget : h2.nodes[tl]? = some m := hms.get (tl, m) (by simp)
  have hlt : tl < h2.nodes.length := getElem?_lt hget
  have htge := hmge (tl, m) (by simp)
  have hnd := hms.nodup
  let h3 : Heap := { h2 with nodes := (h2.nodes ++ [(⟨t, none, true⟩ : Node)]).set tl { m with next := some h2.nodes.length } }
  have hset : ∀ x, x < h2.nodes.length → x ≠ tl → h3.nodes[x]? = h2.nodes[x]? := by
    intro x hx hxt
    show ((h2.nodes ++ [_]).set tl _)[x]? = _
    rw [List.getElem?_set_ne (Ne.symm hxt), List.getElem?_append_left hx]
  have hp3 : Path h3 b2.head (ks ++ [(tl, { m with next := some h2.nodes.length }), (h2.nodes.length, ⟨t, none, true⟩)]) := by
    refine Path.snoc (h := h2) ?_ ?_ rfl hms ?_
    · show ((h2.nodes ++ [_]).set tl _)[tl]? = _
      rw [List.getElem?_set_self (by simp; omega)]
    · show ((h2.nodes ++ [_]).set tl _)[h2.nodes.length]? = _
      rw [List.getElem?_set_ne (by omega)]; simp
    · intro x hxm
      refine hset x.1 (hms.lt x (by simp [hxm])) ?_
      intro he
      rw [List.map_append, List.nodup_append] at hnd
      exact hnd.2.2 x.1 (List.mem_map.2 ⟨x, hxm, rfl⟩) tl (by simp) he
  have hext3 : Ext h h3 := by
    have hle := e0.len
    refine ⟨fun x hx => ?_, ?_, e0.vecs, e0.strs, e0.ids⟩
    · rw [hset x (by omega) (by omega), e0.nodes x hx]
    · show _ ≤ ((h2.nodes ++ [_]).set tl _).length
      simp; omega
  have hfin : ∃ hd, b2.head = some hd := by
    cases hb : b2.head with
    | some x => exact ⟨x, rfl⟩
    | none =>
      rw [hb] at hp3
      cases ks with
      | nil => exact absurd hp3.1 (by simp)
      | cons z zs => exact absurd hp3.1 (by simp)
  obtain ⟨hd0, hhd⟩ := hfin
  have hext4 : Ext h3 { h3 with nextId := h3.nextId + 1 } := ext_newId h3 _ (by omega)
  refine ⟨⟨h3.nextId, .list hd0⟩, { h3 with nextId := h3.nextId + 1 }, ?_, ?_, hext3.trans hext4⟩
  · have htail : (append fuel (front ++ [l])) h = (do
        let lc ← lastCdr fuel l
        let b ← appendArgs fuel lc.isSome Builder.empty (front ++ [l])
        match lc with
        | some o => do
          let a ← allocNode ⟨o, none, true⟩
          match b.tail with
          | none => newObj (.list a)
          | some t => do
            let n ← getNode t
            setNode t { n with next := some a }
            wrapList b.head
        | none => wrapList b.head : M Obj) h := by
      match front, hne, hnn with
      | [o], _, hnn =>
        have : ¬ (o.v = .nil ∧ ([] : List Obj) = []) := fun hc => hnn o rfl hc.1
        show append fuel (o :: l :: []) h = _
        rw [append_two, if_neg this]
        rfl
      | o :: o2 :: os, _, _ =>
        have : ¬ (o.v = .nil ∧ (os ++ [l]) = []) := by simp
        show append fuel (o :: o2 :: (os ++ [l])) h = _
        rw [append_two, if_neg this]
        have : (o2 :: (os ++ [l])).getLast (List.cons_ne_nil _ _) = l := by
          rw [List.getLast_cons (by simp)]; simp
        rw [this]
        rfl
    rw [htail, M.bind_ok hlc]
    simp only [Option.isSome_some]
    rw [M.bind_ok hall]
    simp only [htl', hhd]
    rw [M.bind_ok (h := h2) (a := h2.nodes.length) (h' := { h2 with nodes := h2.nodes ++ [⟨t, none, true⟩] }) rfl]
    have hg2 : (h2.nodes ++ [(⟨t, none, true⟩ : Node)])[tl]? = some m := by
      rw [List.getElem?_append_left hlt]; exact hget
    rw [M.bind_ok (getNode_ok (h := { h2 with nodes := h2.nodes ++ [(⟨t, none, true⟩ : Node)] }) hg2)]
    have hl2 : tl < (h2.nodes ++ [(⟨t, none, true⟩ : Node)]).length := by simp; omega
    rw [M.bind_ok (a := ()) (h' := h3) (by simp only [setNode, if_pos hl2]; rfl)]
    rfl
  · refine ⟨some hd0, ks ++ [(tl, { m with next := some h2.nodes.length })], h2.nodes.length, rfl, ?_, by simp, ?_, ?_⟩
    · rw [← hhd]
      have := hp3.mono hext4
      simpa [List.append_assoc] using this
    · simpa using hmx
    · intro x hxm
      simp at hxm
      rcases hxm with hxm | rfl
      · exact hmd x (by simp [hxm])
      · exact hmd (tl, m) (by simp)

/-- A heap for C15: `(1)` at 0 and `(2 3 . 4)` at 1. -/
def exH15 : Heap where
  nodes := [⟨exNum 1, none, false⟩, ⟨exNum 2, some 2, false⟩, ⟨exNum 3, some 3, false⟩, ⟨exNum 4, none, true⟩]
  vecs := []
  strs := []
  nextId := 5000

/-- C15 (violation): `(append '(1) '(2 3 . 4))` is `(1 2 . 4)` — the element 3 is lost; and
`(append '(1) 2)` is the proper list `(1 2)` instead of `(1 . 2)`. -/
theorem c15_counterexample :
    (∃ r h', append 9 [⟨70, .list 0⟩, ⟨71, .list 1⟩] exH15 = (.ok r, h') ∧
      ImproperList h' r [exNum 1, exNum 2] (exNum 4)) ∧
    (∃ r h' as, append 9 [⟨70, .list 0⟩, exNum 2] exH15 = (.ok r, h') ∧ ProperList h' r as [exNum 1, exNum 2]) := by
  refine ⟨⟨_, _, rfl, some 4, [(4, ⟨exNum 1, some 5, false⟩), (5, ⟨exNum 2, some 6, false⟩)], 6, rfl,
    ⟨rfl, rfl, rfl, rfl, rfl, rfl, rfl⟩, by decide, rfl, by decide⟩,
    _, _, [4, 5], rfl, some 4, [(4, ⟨exNum 1, some 5, false⟩), (5, ⟨exNum 2, none, false⟩)], rfl,
    ⟨rfl, rfl, rfl, rfl, rfl⟩, rfl, rfl, by decide⟩

example : ProperLists exH [exL123, exL5] [[exNum 1, exNum 2, exNum 3], [exNum 5]] :=
  ⟨⟨_, exL123_proper⟩, ⟨_, exL5_proper⟩, trivial⟩
example : ∃ r h', append 9 ([exL5] ++ [exDot]) exH = (.ok r, h') ∧ ImproperList h' r [exNum 5, exNum 1] (exNum 2) := by
  obtain ⟨r, h', e, l, -⟩ := c15_append_improper exH [exL5] [[exNum 5]] exDot (exNum 2) (exNum 1) [] 9
    ⟨⟨_, exL5_proper⟩, trivial⟩ (by simp) (by rintro o ⟨rfl⟩; decide) exDot_improper (by simp) (by decide)
  exact ⟨r, h', e, l⟩

/-! ## C16 — `list-ref`, `list-head`, `list-tail` -/

/-- C16: `(list-ref l k)` is the `k`-th element for `0 ≤ k < length`, and a Scheme error for every other integer;
nothing is changed and nothing outside the list is read. -/
theorem c16_list_ref (h : Heap) (o kobj : Obj) (as : List Addr) (xs : List Obj) (k : Int) (fuel : Nat)
    (hl : ProperList h o as xs) (hk : kobj.v = .num k) (hf : xs.length ≤ fuel) :
    (∀ x, 0 ≤ k → xs[k.toNat]? = some x → listRef fuel o kobj h = (.ok x, h)) ∧
    ((k < 0 ∨ (xs.length : Int) ≤ k) → listRef fuel o kobj h = (.err .evalError, h)) := by
  rcases hl.cases with ⟨hv, -, rfl⟩ | ⟨a, ns, hv, hp, -, hx, -, hlen, -⟩
  · simp [listRef, hv]
  · simp only [listRef, hv, hk]
    constructor
    · intro x h0 hxk
      rw [if_neg (by omega), listRefLoop_path hp (by omega) h0]
      simp [hx, hxk]
    · intro hbad
      by_cases h0 : k < 0
      · rw [if_pos h0]; rfl
      · rw [if_neg h0, listRefLoop_path hp (by omega) (by omega)]
        have : xs[(k - 0).toNat]? = none := List.getElem?_eq_none (by omega)
        rw [hx, this]

theorem toSize_nonneg {k : Int} (h0 : 0 ≤ k) (h1 : k < 2 ^ 63) : toSize k = k.toNat := by
  unfold toSize; rw [Int.emod_eq_of_lt h0 (by omega)]

theorem toSize_neg {k : Int} (h0 : k < 0) (h1 : -2 ^ 63 ≤ k) : 2 ^ 63 ≤ toSize k := by
  unfold toSize
  have : k % 2 ^ 64 = k + 2 ^ 64 := by omega
  rw [this]; omega

/-- C16: `(list-tail l k)` for `0 ≤ k ≤ length` is the tail after `k` elements, sharing its pairs with `l`; every
other index is a Scheme error. -/
theorem c16_list_tail (h : Heap) (o kobj : Obj) (as : List Addr) (xs : List Obj) (k : Int) (fuel : Nat)
    (hl : ProperList h o as xs) (hk : kobj.v = .num k) (hk64 : InI64 k) (hlen : xs.length < 2 ^ 63)
    (hf : xs.length < fuel) :
    ((0 ≤ k ∧ k ≤ xs.length) → ∃ r h', listTail fuel o kobj h = (.ok r, h') ∧ Ext h h' ∧
        ProperList h' r (as.drop k.toNat) (xs.drop k.toNat)) ∧
    ((k < 0 ∨ (xs.length : Int) < k) → listTail fuel o kobj h = (.err .evalError, h)) := by
  obtain ⟨p, ns, hs, hp, ha, hx, hd⟩ := hl
  have hnl : ns.length = xs.length := by rw [← hx]; simp
  have hcast : castList o = .ok p := by
    cases hv : o.v <;> rw [hv] at hs <;> cases hs <;> simp [castList, hv]
  unfold InI64 at hk64
  simp only [listTail, hcast, hk]
  constructor
  · rintro ⟨h0, h1⟩
    rw [toSize_nonneg h0 hk64.2]
    obtain ⟨q, e, hq⟩ := (listTailLoop_path (fuel := fuel) (k := k.toNat) hp (by omega)).1 (by omega)
    rw [M.bind_ok e]
    cases q with
    | none => exact ⟨Obj.nil, h, rfl, Ext.refl h, none, ns.drop k.toNat, rfl, hq, by rw [← ha, List.map_drop],
        by rw [← hx, List.map_drop], fun x hxm => hd x (List.mem_of_mem_drop hxm)⟩
    | some a =>
      have he := ext_newId h (h.nextId + 1) (by omega)
      exact ⟨⟨h.nextId, .list a⟩, _, rfl, he, some a, ns.drop k.toNat, rfl, hq.mono he, by rw [← ha, List.map_drop],
        by rw [← hx, List.map_drop], fun x hxm => hd x (List.mem_of_mem_drop hxm)⟩
  · intro hbad
    have hb : ns.length < toSize k := by
      rcases hbad with h0 | h1
      · have := toSize_neg h0 hk64.1; omega
      · rw [toSize_nonneg (by omega) hk64.2]; omega
    rw [M.bind_err ((listTailLoop_path (fuel := fuel) hp (by omega)).2 hb)]

/-- C16: `(list-head l k)` for `0 ≤ k ≤ length` is a new proper list of the first `k` elements; every other index is
a Scheme error. -/
theorem c16_list_head (h : Heap) (o kobj : Obj) (as : List Addr) (xs : List Obj) (k : Int) (fuel : Nat)
    (hl : ProperList h o as xs) (hk : kobj.v = .num k) (hk64 : InI64 k) (hlen : xs.length < 2 ^ 63)
    (hf : xs.length < fuel) :
    ((0 ≤ k ∧ k ≤ xs.length) → ∃ r h' bs, listHead fuel o kobj h = (.ok r, h') ∧ Ext h h' ∧
        ProperList h' r bs (xs.take k.toNat) ∧ ∀ b ∈ bs, b ∉ as) ∧
    ((k < 0 ∨ (xs.length : Int) < k) → ∃ h', listHead fuel o kobj h = (.err .evalError, h') ∧ Ext h h') := by
  unfold InI64 at hk64
  simp only [listHead, hk]
  constructor
  · rintro ⟨h0, h1⟩
    rw [toSize_nonneg h0 hk64.2]
    by_cases hz : k.toNat = 0
    · rw [if_pos hz]
      exact ⟨Obj.nil, h, [], rfl, Ext.refl h, ⟨none, [], rfl, rfl, rfl, by simp [hz], by simp⟩, by simp⟩
    · rw [if_neg hz]
      rcases hl.cases with ⟨hv, -, rfl⟩ | ⟨a, ns, hv, hp, ha, hx, -, hlen', -⟩
      · simp at h1; omega
      · obtain ⟨b, h', e, i⟩ := listHeadLoop_path (fuel := fuel) (k := k.toNat) (BInv.empty h) hp (by omega)
        obtain ⟨r, h'', bs, e2, he, hpl, hfr⟩ := i.finish
        refine ⟨r, h'', bs, ?_, he, by rw [← hx, ← List.map_take]; simpa using hpl, ?_⟩
        · simp only [hv]
          rw [M.bind_ok e]
          simp only [show k.toNat - ns.length = 0 by omega, Nat.lt_irrefl, if_false]
          exact e2
        · intro c hc hca
          rw [← ha] at hca
          obtain ⟨y, hy, rfl⟩ := List.mem_map.1 hca
          have := hp.lt y hy
          have := hfr _ hc
          omega
  · intro hbad
    have hpos : xs.length < toSize k := by
      rcases hbad with h0 | h1
      · have := toSize_neg h0 hk64.1; omega
      · rw [toSize_nonneg (by omega) hk64.2]; omega
    rw [if_neg (by omega)]
    rcases hl.cases with ⟨hv, -, rfl⟩ | ⟨a, ns, hv, hp, ha, hx, -, hlen', -⟩
    · simp only [hv]; exact ⟨h, rfl, Ext.refl h⟩
    · obtain ⟨b, h', e, i⟩ := listHeadLoop_path (fuel := fuel) (k := toSize k) (BInv.empty h) hp (by omega)
      simp only [hv]
      rw [M.bind_ok e]
      simp only [show 0 < toSize k - ns.length by omega, if_true]
      exact ⟨h', rfl, i.1⟩

/-- C16: `(append (list-head l k) (list-tail l k))` has the elements of `l`, for `0 ≤ k ≤ length`. -/
theorem c16_head_tail (h : Heap) (o kobj : Obj) (as : List Addr) (xs : List Obj) (k : Int) (fuel : Nat)
    (hl : ProperList h o as xs) (hk : kobj.v = .num k) (hk64 : InI64 k) (hlen : xs.length < 2 ^ 63)
    (hf : xs.length < fuel) (h0 : 0 ≤ k) (h1 : k ≤ xs.length) :
    ∃ r1 h1 r2 h2 r h3 bs, listHead fuel o kobj h = (.ok r1, h1) ∧ listTail fuel o kobj h1 = (.ok r2, h2) ∧
      append fuel [r1, r2] h2 = (.ok r, h3) ∧ ProperList h3 r bs xs := by
  obtain ⟨r1, hh1, bs, e1, x1, l1, -⟩ := (c16_list_head h o kobj as xs k fuel hl hk hk64 hlen hf).1 ⟨h0, h1⟩
  have hmono : ∀ {h h' : Heap} {o as xs}, Ext h h' → ProperList h o as xs → ProperList h' o as xs := by
    rintro h h' o as xs he ⟨p, ns, hs, hp, r⟩
    exact ⟨p, ns, hs, hp.mono he, r⟩
  obtain ⟨r2, hh2, e2, x2, l2⟩ := (c16_list_tail hh1 o kobj as xs k fuel (hmono x1 hl) hk hk64 hlen hf).1 ⟨h0, h1⟩
  obtain ⟨r, hh3, cs, e3, l3, -⟩ := c15_append_partial hh2 [r1, r2] [xs.take k.toNat, xs.drop k.toNat] fuel
    ⟨⟨bs, hmono x2 l1⟩, ⟨_, l2⟩, trivial⟩ (by
      intro ys hy
      simp at hy
      rcases hy with rfl | rfl
      · simp; omega
      · simp; omega)
  exact ⟨r1, hh1, r2, hh2, r, hh3, cs, e1, e2, e3, by simpa using l3⟩

example : ProperList exH exL123 [0, 1, 2] [exNum 1, exNum 2, exNum 3] ∧ (exNum 2).v = .num 2 ∧ InI64 2 :=
  ⟨exL123_proper, rfl, by decide⟩

/-! ## C17 — `last-pair` -/

/-- The `last-pair` result for every non-empty proper list: of the `n` pairs, the last one when `n` is even, but the
middle one (index `(n-1)/2`) when `n` is odd. -/
theorem c17_actual (h : Heap) (o : Obj) (as : List Addr) (xs : List Obj) (fuel : Nat)
    (hl : ProperList h o as xs) (hne : xs ≠ []) (hf : xs.length ≤ fuel) :
    ∃ r h', lastPair fuel o h = (.ok r, h') ∧ Ext h h' ∧
      r.v = .list (as.getD (if as.length % 2 = 1 then (as.length - 1) / 2 else as.length - 1) 0) := by
  rcases hl.cases with ⟨hv, -, rfl⟩ | ⟨a, ns, hv, hp, ha, hx, -, hlen, hal⟩
  · exact absurd rfl hne
  · have hpos : 0 < xs.length := by cases xs with | nil => exact absurd rfl hne | cons => simp
    obtain ⟨n, r, e, -, -⟩ := hp.cases_some
    have h0 : as[0]? = some a := by rw [← ha, e]; rfl
    have := lastPairLoop_path ha hp as.length 0 fuel (by omega) (by omega) (by omega) a a h0 h0
    have hgoal : lastPair fuel o h = lastPairLoop fuel a a h := by simp only [lastPair, hv]
    rw [hgoal, this]
    exact ⟨_, _, rfl, ext_newId h (h.nextId + 1) (by omega), rfl⟩

/-- C17 (the part that holds): for a proper list with one element or an even number of elements, `last-pair` is the
last pair; on a circular list it terminates with a Scheme error (for all sufficiently large fuel). -/
theorem c17_last_pair_partial (h : Heap) (o : Obj) :
    (∀ as xs fuel, ProperList h o as xs → (xs.length = 1 ∨ (xs ≠ [] ∧ xs.length % 2 = 0)) → xs.length ≤ fuel →
      ∃ r h' a, lastPair fuel o h = (.ok r, h') ∧ Ext h h' ∧ as.getLast? = some a ∧ r.v = .list a) ∧
    (∀ a s, o.v = .list a → Endless h a s → ∃ N, ∀ fuel, N ≤ fuel → lastPair fuel o h = (.err .evalError, h)) := by
  constructor
  · intro as xs fuel hl hcase hf
    have hal : as.length = xs.length := by
      rcases hl.cases with ⟨-, rfl, rfl⟩ | ⟨_, _, _, _, _, _, _, _, h⟩
      · rfl
      · exact h
    have hne : xs ≠ [] := by rcases hcase with h1 | h1
                             · intro h2; simp [h2] at h1
                             · exact h1.1
    obtain ⟨r, h', e, he, hr⟩ := c17_actual h o as xs fuel hl hne hf
    have hpos : 0 < as.length := by rw [hal]; cases xs with | nil => exact absurd rfl hne | cons => simp
    have hidx : (if as.length % 2 = 1 then (as.length - 1) / 2 else as.length - 1) = as.length - 1 := by
      split <;> omega
    rw [hidx] at hr
    refine ⟨r, h', as.getD (as.length - 1) 0, e, he, ?_, hr⟩
    rw [List.getLast?_eq_getElem?]
    simp [List.getD, List.getElem?_eq_getElem (show as.length - 1 < as.length by omega)]
  · intro a s hv hs
    obtain ⟨m, hm, hmeet⟩ := endless_meet hs
    refine ⟨m, fun fuel hf => ?_⟩
    have := lastPairLoop_endless hs hm hmeet m 0 fuel (by omega) hm hf
    simp only [lastPair, hv]
    simpa [hs.1] using this

/-- C17 (violation): for every proper list with an odd number of at least three elements the result is not the last
pair. -/
theorem c17_counterexample (h : Heap) (o : Obj) (as : List Addr) (xs : List Obj) (fuel : Nat)
    (hl : ProperList h o as xs) (h3 : 3 ≤ xs.length) (hodd : xs.length % 2 = 1) (hf : xs.length ≤ fuel) :
    ∃ r h' a, lastPair fuel o h = (.ok r, h') ∧ as.getLast? = some a ∧ r.v ≠ .list a := by
  have hal : as.length = xs.length := by
    rcases hl.cases with ⟨-, rfl, rfl⟩ | ⟨_, _, _, _, _, _, _, _, h⟩
    · rfl
    · exact h
  have hnd : as.Nodup := by
    rcases hl.cases with ⟨-, rfl, rfl⟩ | ⟨_, _, _, hp, ha, _⟩
    · simp
    · rw [← ha]; exact hp.nodup
  obtain ⟨r, h', e, he, hr⟩ := c17_actual h o as xs fuel hl (by intro h; simp [h] at h3) hf
  rw [if_pos (by omega)] at hr
  refine ⟨r, h', as[as.length - 1]'(by omega), e, ?_, ?_⟩
  · rw [List.getLast?_eq_getElem?, List.getElem?_eq_getElem (show as.length - 1 < as.length by omega)]
  · rw [hr]
    intro hc
    simp only [Val.list.injEq, List.getD, List.getElem?_eq_getElem (show (as.length - 1) / 2 < as.length by omega),
      Option.getD_some] at hc
    have := (List.getElem_inj hnd).1 hc
    omega

example : ∃ r h' a, lastPair 3 exL123 exH = (.ok r, h') ∧ [0, 1, 2].getLast? = some a ∧ r.v ≠ .list a :=
  c17_counterexample exH exL123 _ _ 3 exL123_proper (by decide) (by decide) (by decide)
example : exL5.v = .list 8 ∧ ProperList exH exL5 [8] [exNum 5] ∧ Endless exH 5 (fun _ => 5) :=
  ⟨rfl, exL5_proper, exCirc_endless⟩

/-! ## C18 — `memq`, `memv`, `member` -/

theorem memG_proper {test : Heap → Obj → Res Bool} {h : Heap} {o as xs fuel} (hl : ProperList h o as xs)
    (hf : xs.length ≤ fuel) (t : Obj → Bool) (ht : ∀ x ∈ xs, test h x = .ok (t x)) :
    (∀ i x, xs[i]? = some x → t x = true → (∀ j y, j < i → xs[j]? = some y → t y = false) →
      ∃ r h', memG test fuel o h = (.ok r, h') ∧ Ext h h' ∧ ProperList h' r (as.drop i) (xs.drop i)) ∧
    ((∀ x ∈ xs, t x = false) → memG test fuel o h = (.ok Obj.f, h)) := by
  rcases hl.cases with ⟨hv, rfl, rfl⟩ | ⟨a, ns, hv, hp, ha, hx, hd, hlen, hal⟩
  · simp [memG, hv]
  · simp only [memG, hv]
    have ht' : ∀ x ∈ ns, test h x.2.data = .ok (t x.2.data) := by
      intro x hxm
      exact ht _ (by rw [← hx]; exact List.mem_map.2 ⟨x, hxm, rfl⟩)
    obtain ⟨m1, m2⟩ := memLoop_path (fuel := fuel) hp (by omega) ht'
    constructor
    · intro i x hi htx hbefore
      have hin : i < ns.length := by rw [hlen]; exact getElem?_lt hi
      have hsplit : ns = ns.take i ++ ns[i] :: ns.drop (i + 1) := by simp
      have hxi : (ns[i]).2.data = x := by
        rw [← hx] at hi
        simpa [List.getElem?_eq_getElem hin] using hi
      have := m1 (ns.take i) ns[i] (ns.drop (i + 1)) hsplit (by
        intro y hy
        obtain ⟨j, hj, rfl⟩ := List.getElem_of_mem hy
        simp only [List.length_take] at hj
        rw [List.getElem_take]
        exact hbefore j _ (by omega) (by
          rw [← hx]; simp [List.getElem?_eq_getElem (show j < ns.length by omega)])) (by rw [hxi]; exact htx)
      have he := ext_newId h (h.nextId + 1) (by omega)
      refine ⟨_, _, this, he, some ns[i].1, ns.drop i, rfl, ?_, by rw [← ha, List.map_drop], by rw [← hx, List.map_drop],
        fun y hy => hd y (List.mem_of_mem_drop hy)⟩
      have hp' := hp
      rw [hsplit] at hp'
      obtain ⟨q, hq, -, -⟩ := Path.append_inv hp'
      have hq1 := hq.1
      rw [hq1] at hq
      have : ns.drop i = ns[i] :: ns.drop (i + 1) := by simp
      rw [this]
      exact hq.mono he
    · intro hall
      exact m2 (fun x hxm => hall _ (by rw [← hx]; exact List.mem_map.2 ⟨x, hxm, rfl⟩))

/-- C18 for `memq`: on a proper list for whose elements `eq?` with `x` is decided by `t`, the result is the tail
starting at the first element with `t`, sharing its pairs, or `#f` when there is none. -/
theorem c18_memq (F : FArith) (h : Heap) (x o : Obj) (as : List Addr) (xs : List Obj) (fuel : Nat) (t : Obj → Bool)
    (hl : ProperList h o as xs) (hf : xs.length ≤ fuel) (ht : ∀ y ∈ xs, eqP F h x y = .ok (t y)) :
    (∀ i y, xs[i]? = some y → t y = true → (∀ j z, j < i → xs[j]? = some z → t z = false) →
      ∃ r h', memq F fuel x o h = (.ok r, h') ∧ Ext h h' ∧ ProperList h' r (as.drop i) (xs.drop i)) ∧
    ((∀ y ∈ xs, t y = false) → memq F fuel x o h = (.ok Obj.f, h)) :=
  memG_proper hl hf t ht

/-- C18 for `member`, with the comparison `_eq` that it uses (C22 relates that to `equal?`). -/
theorem c18_member_partial (F : FArith) (h : Heap) (x o : Obj) (as : List Addr) (xs : List Obj) (fuel : Nat)
    (t : Obj → Bool) (hl : ProperList h o as xs) (hf : xs.length ≤ fuel)
    (ht : ∀ y ∈ xs, legacyEq F h fuel x y = .ok (t y)) :
    (∀ i y, xs[i]? = some y → t y = true → (∀ j z, j < i → xs[j]? = some z → t z = false) →
      ∃ r h', member F fuel x o h = (.ok r, h') ∧ Ext h h' ∧ ProperList h' r (as.drop i) (xs.drop i)) ∧
    ((∀ y ∈ xs, t y = false) → member F fuel x o h = (.ok Obj.f, h)) :=
  memG_proper hl hf t ht

/-- C18 for `memv` when the key is a number other than a ratio, a character or a boolean: the comparison is `eqv?`. -/
theorem c18_memv_partial (F : FArith) (h : Heap) (x o : Obj) (as : List Addr) (xs : List Obj) (fuel : Nat)
    (t : Obj → Bool) (hx : x.v.ty = .num ∨ x.v.ty = .float ∨ x.v.ty = .chr ∨ x.v.ty = .bool)
    (hl : ProperList h o as xs) (hf : xs.length ≤ fuel) (ht : ∀ y ∈ xs, eqvP F h x y = .ok (t y)) :
    (∀ i y, xs[i]? = some y → t y = true → (∀ j z, j < i → xs[j]? = some z → t z = false) →
      ∃ r h', memv F fuel x o h = (.ok r, h') ∧ Ext h h' ∧ ProperList h' r (as.drop i) (xs.drop i)) ∧
    ((∀ y ∈ xs, t y = false) → memv F fuel x o h = (.ok Obj.f, h)) := by
  refine memG_proper hl hf t (fun y hy => ?_)
  rw [← ht y hy]
  unfold memvEqv eqvP
  by_cases hxy : x = y
  · simp [hxy]
  · rw [if_neg hxy, if_neg hxy]
    cases hvx : x.v <;> rw [hvx] at hx <;> simp [Val.ty] at hx <;>
      cases hvy : y.v <;> simp [Val.ty, numFloatMix, hxy]

/-- C18 (violation): `memv` does not find symbols: in the list holding another occurrence of the symbol `a`, `eqv?` is
`#t` but `memv` returns `#f`. -/
theorem c18_counterexample (F : FArith) :
    let h : Heap := ⟨[⟨⟨80, .sym [97]⟩, none, false⟩], [], [], 100⟩
    eqvP F h ⟨81, .sym [97]⟩ ⟨80, .sym [97]⟩ = .ok true ∧
      memv F 5 ⟨81, .sym [97]⟩ ⟨82, .list 0⟩ h = (.ok Obj.f, h) := by
  constructor <;> rfl

example : ∃ r h', memq exampleF' 3 (exNum 2) exL123 exH = (.ok r, h') ∧ ProperList h' r [1, 2] [exNum 2, exNum 3] := by
  obtain ⟨r, h', e, -, l⟩ := (c18_memq exampleF' exH (exNum 2) exL123 _ _ 3 (fun y => decide (y = exNum 2)) exL123_proper
    (by decide) (by intro y hy; simp at hy; rcases hy with rfl | rfl | rfl <;> rfl)).1 1 (exNum 2) rfl (by decide)
    (by intro j z hj hz; have : j = 0 := by omega
        subst this; cases hz; decide)
  exact ⟨r, h', e, l⟩

/-! ## C19 — `list?` -/

/-- C19 (the part that holds): `list?` always terminates (10003 iterations suffice, whatever the heap); it is `#t` for
every proper list of at most 10001 elements, `#f` for improper lists, circular lists and non-lists. -/
theorem c19_list_p_partial (h : Heap) (o : Obj) (fuel : Nat) :
    (10003 ≤ fuel → (isListP fuel o h).1 ≠ .oof) ∧
    (∀ as xs, ProperList h o as xs → xs.length ≤ 10001 → xs.length ≤ fuel → isListP fuel o h = (.ok Obj.t, h)) ∧
    (∀ xs t, ImproperList h o xs t → xs.length < fuel → isListP fuel o h = (.ok Obj.f, h)) ∧
    (∀ a s, o.v = .list a → Endless h a s → 10002 ≤ fuel → isListP fuel o h = (.ok Obj.f, h)) ∧
    (o.v.ty ≠ .list → o.v ≠ .nil → isListP fuel o h = (.ok Obj.f, h)) := by
  refine ⟨?_, ?_, ?_, ?_, ?_⟩
  · intro hf
    unfold isListP
    cases hv : o.v <;> simp only [M.pure_app, ne_eq, reduceCtorEq, not_false_eq_true]
    rename_i a
    have := isListLoop_total h 10002 fuel 0 a (by omega) (by omega)
    rw [M.bind_app]
    cases hr : isListLoop fuel 0 a h with
    | mk r h' => rw [hr] at this; cases r <;> simp_all
  · intro as xs hl hlen hf
    rcases hl.cases with ⟨hv, -, rfl⟩ | ⟨a, ns, hv, hp, ha, hx, hd, hnl, -⟩
    · simp [isListP, hv]
    · simp only [isListP, hv]
      rw [M.bind_ok ((isListLoop_path (count := 0) hp (by omega)).1 hd (by omega))]
      rfl
  · rintro xs t ⟨p, ns, b, hs, hp, hne, hx, -⟩ hf
    have hnl : ns.length = xs.length := by rw [← hx]; simp
    cases hv : o.v with
    | list a =>
      rw [hv] at hs; cases hs
      simp only [isListP, hv]
      rw [M.bind_ok ((isListLoop_path (count := 0) hp (by simp; omega)).2.2 ⟨(b, ⟨t, none, true⟩), by simp, rfl⟩)]
      rfl
    | nil =>
      rw [hv] at hs; cases hs
      cases ns with
      | cons y ys => exact absurd hp.1 (by simp)
      | nil => exact absurd rfl hne
    | _ => rw [hv] at hs; cases hs
  · intro a s hv hs hf
    simp only [isListP, hv]
    have := isListLoop_endless hs 10001 0 fuel (by omega) (by omega)
    rw [hs.1] at this
    rw [M.bind_ok this]
    rfl
  · intro h1 h2
    cases hv : o.v <;> simp_all [isListP, Val.ty]

/-- C19 (violation): every proper list with more than 10001 elements is rejected, and so is the literal `(1 . (2 3))`,
which is the list `1 2 3` for `car`/`cdr`. -/
theorem c19_counterexample :
    (∀ (h : Heap) (o : Obj) as xs fuel, ProperList h o as xs → 10001 < xs.length → xs.length ≤ fuel →
      isListP fuel o h = (.ok Obj.f, h)) ∧
    (SemList exH exLit.v [exNum 1, exNum 2, exNum 3] ∧ isListP 9 exLit exH = (.ok Obj.f, exH)) := by
  constructor
  · intro h o as xs fuel hl hlen hf
    rcases hl.cases with ⟨hv, -, rfl⟩ | ⟨a, ns, hv, hp, ha, hx, hd, hnl, -⟩
    · simp at hlen
    · simp only [isListP, hv]
      rw [M.bind_ok ((isListLoop_path (count := 0) hp (by omega)).2.1 hd (by omega) (by omega))]
      rfl
  · exact ⟨exLit_sem, rfl⟩

/-- There are such long lists: a proper list of 10002 elements exists in some heap. -/
theorem longList_exists (n : Nat) : ∃ h o as xs, ProperList h o as xs ∧ xs.length = n := by
  obtain ⟨b, h', e, i, -⟩ := BInv.pushAll (ys := List.replicate n (exNum 1)) (BInv.empty exH)
  obtain ⟨r, h'', as, -, -, l, -⟩ := i.finish
  exact ⟨h'', r, as, _, l, by simp⟩

example : ∃ h o as xs, ProperList h o as xs ∧ xs.length = 10002 := longList_exists 10002
example : ProperList exH exL123 [0, 1, 2] [exNum 1, exNum 2, exNum 3] ∧ ImproperList exH exDot [exNum 1] (exNum 2) :=
  ⟨exL123_proper, exDot_improper⟩

end Pscm
