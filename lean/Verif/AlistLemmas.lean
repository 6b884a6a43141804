import Verif.Alist
import Verif.EqLemmas
import Verif.ListProps
/-! # Association lists: specification vocabulary and lemmas -/
namespace Pscm
open Spec

namespace Spec

/-- The car of `z` is `k` and its cdr is the value `v`, as `car` and `cdr` see them. -/
def PairOf (h : Heap) (z k v : Obj) : Prop :=
  ∃ a n, z.v = .list a ∧ h.nodes[a]? = some n ∧ n.data = k ∧
    match n.next with
    | none => v.v = .nil
    | some b => ∃ m, h.nodes[b]? = some m ∧ if m.dotted then m.data = v else v.v = .list b

/-- The car of `z` is `k` and its cdr is the value `v`, as `car` and `cdr` see them; `z` is an ordinary pair, and a flagged node for the cdr is the last and holds no list. -/
def PlainPairOf (h : Heap) (z k v : Obj) : Prop :=
  ∃ a n, z.v = .list a ∧ h.nodes[a]? = some n ∧ n.data = k ∧ (n.dotted = false ∧
    match n.next with
    | none => v.v = .nil
    | some b => ∃ m, h.nodes[b]? = some m ∧ if m.dotted then m.data = v ∧ m.next = none ∧ v.v.ty ≠ .list ∧ v.v ≠ .nil else v.v = .list b)

theorem PlainPairOf.pairOf {h : Heap} {z k v : Obj} (hp : PlainPairOf h z k v) : PairOf h z k v := by
  obtain ⟨a, n, h1, h2, h3, -, h4⟩ := hp
  refine ⟨a, n, h1, h2, h3, ?_⟩
  cases hn : n.next with
  | none => rw [hn] at h4; exact h4
  | some b =>
    rw [hn] at h4
    obtain ⟨m, hm, h5⟩ := h4
    refine ⟨m, hm, ?_⟩
    cases hd : m.dotted with
    | true => rw [hd] at h5; simpa using h5.1
    | false => rw [hd] at h5; simpa using h5

/-- The key (car) of an alist element, if it is a pair. -/
def entryKey (h : Heap) (e : Obj) : Option Obj :=
  match e.v with
  | .list a => (h.nodes[a]?).map (·.data)
  | _ => none

/-- Every element that is a pair exists in the heap. -/
def EntriesExist (h : Heap) (xs : List Obj) : Prop := ∀ e ∈ xs, ∀ a, e.v = .list a → a < h.nodes.length

end Spec

/-- Does the element match, for a key test `mt`? -/
def matchE (h : Heap) (mt : Obj → Bool) (e : Obj) : Bool :=
  match entryKey h e with
  | some k => mt k
  | none => false

/-- On the element `e` the comparison `test` returns, with answer `mt`, in all later heaps. -/
def TestOk (h : Heap) (test : Heap → Obj → Res Bool) (mt : Obj → Bool) (e : Obj) : Prop :=
  ∀ a, e.v = .list a → ∃ n, h.nodes[a]? = some n ∧ ∀ h', Ext h h' → test h' n.data = .ok (mt n.data)

theorem entryTest_ok {h h' : Heap} {test mt e} (ht : TestOk h test mt e) (he : Ext h h') :
    entryTest test e h' = (.ok (matchE h mt e), h') := by
  unfold entryTest matchE entryKey
  cases hv : e.v with
  | list a =>
    obtain ⟨n, hn, hk⟩ := ht a hv
    simp only [hn, Option.map_some]
    rw [M.bind_ok (getNode_ok (he.get hn)), M.read_app, hk h' he]
  | _ => rfl

theorem assLoop_path {h h' : Heap} {test mt} (he : Ext h h') : ∀ {ns : List (Addr × Node)} {p fuel}, Path h' p ns →
    (∀ x ∈ ns, TestOk h test mt x.2.data) → ns.length < fuel →
    assLoop test fuel p h' = (.ok (((ns.map (·.2.data)).find? (matchE h mt)).getD Obj.f), h')
  | [], p, 0, _, _, hf => by simp at hf
  | [], p, fuel + 1, hp, _, _ => by simp [Path] at hp; subst hp; rfl
  | (a, n) :: r, p, 0, _, _, hf => by simp at hf
  | (a, n) :: r, p, fuel + 1, ⟨h1, h2, h3⟩, ht, hf => by
    subst h1
    simp only [assLoop]
    rw [M.bind_ok (getNode_ok h2), M.bind_ok (entryTest_ok (ht (a, n) (by simp)) he)]
    by_cases hm : matchE h mt n.data = true
    · simp [hm]
    · rw [if_neg hm, assLoop_path he h3 (fun x hx => ht x (by simp [hx])) (by simp at hf; omega)]
      simp [hm]

theorem assG_raw {h h' : Heap} {test mt o as xs fuel} (he : Ext h h') (hl : RawList h' o as xs)
    (ht : ∀ e ∈ xs, TestOk h test mt e) (hf : xs.length < fuel) :
    assG test fuel o h' = (.ok ((xs.find? (matchE h mt)).getD Obj.f), h') := by
  obtain ⟨p, ns, hs, hp, -, hx⟩ := hl
  have hlen : ns.length = xs.length := by rw [← hx]; simp
  cases hv : o.v with
  | list a =>
    rw [hv] at hs; cases hs
    simp only [assG, hv]
    rw [assLoop_path he hp (fun x hxm => ht _ (by rw [← hx]; exact List.mem_map.2 ⟨x, hxm, rfl⟩)) (by omega), hx]
  | nil =>
    rw [hv] at hs; cases hs
    cases ns with
    | nil => simp at hx; subst hx; simp [assG, hv]
    | cons y ys => exact absurd hp.1 (by simp)
  | _ => rw [hv] at hs; cases hs

/-! ### Comparisons in extended heaps -/

theorem node?_ext {h h' : Heap} (he : Ext h h') {a n} (hn : node? h a = .ok n) : node? h' a = .ok n := by
  unfold node? at hn ⊢
  cases hh : h.nodes[a]? with
  | none => rw [hh] at hn; cases hn
  | some m => rw [hh] at hn; rw [he.get hh]; exact hn

theorem symEq_ext {h h' : Heap} (he : Ext h h') (a b : Val) : symEq h' a b = symEq h a b := by
  unfold symEq; rw [he.strs]

section
variable (F : FArith)

theorem legacy_ext {h h' : Heap} (he : Ext h h') : ∀ fuel,
    (∀ a b r, legacyEq F h fuel a b = .ok r → legacyEq F h' fuel a b = .ok r) ∧
    (∀ x y r, legacyListEq F h fuel x y = .ok r → legacyListEq F h' fuel x y = .ok r) ∧
    (∀ xs ys r, legacyVectorEq F h fuel xs ys = .ok r → legacyVectorEq F h' fuel xs ys = .ok r) := by
  intro fuel
  induction fuel with
  | zero =>
    refine ⟨fun a b r hh => by simp [legacyEq] at hh, fun x y r hh => by simp [legacyListEq] at hh, ?_⟩
    intro xs ys r hh
    cases xs <;> cases ys <;> simp [legacyVectorEq] at hh ⊢ <;> assumption
  | succ fuel ih =>
    obtain ⟨ih1, ih2, ih3⟩ := ih
    refine ⟨?_, ?_, ?_⟩
    · intro a b r hh
      unfold legacyEq at hh ⊢
      simp only [symEq_ext he, he.vecs] at hh ⊢
      split at hh
      · rename_i hm; rw [if_pos hm]; exact hh
      · rename_i hm; rw [if_neg hm]
        split at hh
        · rename_i ht; rw [if_pos ht]; exact hh
        · rename_i ht; rw [if_neg ht]
          cases hav : a.v with
          | other t1 x =>
            simp only [hav] at hh ⊢
            cases t1 <;> cases hbv : b.v <;> simp only [hbv] at hh ⊢ <;> exact hh
          | list x =>
            simp only [hav] at hh ⊢
            cases hbv : b.v <;> simp only [hbv] at hh ⊢ <;> first | exact hh | exact ih2 _ _ _ hh
          | vec x =>
            simp only [hav] at hh ⊢
            cases hbv : b.v with
            | vec y =>
              simp only [hbv] at hh ⊢
              split at hh
              · split at hh
                · rename_i hl; rw [if_pos hl]; exact hh
                · rename_i hl; rw [if_neg hl]; exact ih3 _ _ _ hh
              · cases hh
            | _ => simp only [hbv] at hh ⊢; exact hh
          | _ =>
            simp only [hav] at hh ⊢
            cases hbv : b.v <;> (try simp only [hbv] at hh ⊢) <;> exact hh
    · intro x y r hh
      unfold legacyListEq at hh ⊢
      cases x <;> cases y <;> simp only at hh ⊢ <;> try exact hh
      obtain ⟨n1, e1, hh⟩ := Res.bind_eq_ok.1 hh
      obtain ⟨n2, e2, hh⟩ := Res.bind_eq_ok.1 hh
      obtain ⟨e, e3, hh⟩ := Res.bind_eq_ok.1 hh
      rw [node?_ext he e1, node?_ext he e2, Res.bind_ok, Res.bind_ok, ih1 _ _ _ e3, Res.bind_ok]
      cases e
      · exact hh
      · exact ih2 _ _ _ hh
    · intro xs ys r hh
      cases xs with
      | nil => cases ys <;> simpa [legacyVectorEq] using hh
      | cons x xs =>
        cases ys with
        | nil => simpa [legacyVectorEq] using hh
        | cons y ys =>
          simp only [legacyVectorEq] at hh ⊢
          obtain ⟨e, e3, hh⟩ := Res.bind_eq_ok.1 hh
          rw [ih1 _ _ _ e3, Res.bind_ok]
          cases e
          · exact hh
          · exact ih3 _ _ _ hh

end

mutual
theorem Spec.Denotes.ext {d h h' v t} (he : Ext h h') (h1 : Denotes d h v t) : Denotes d h' v t := by
  cases h1 with
  | nil => exact .nil
  | int => exact .int _
  | bool => exact .bool _
  | chr => exact .chr _
  | sym s h0 => exact .sym s h0
  | str a s hs h0 => exact .str a s (by rw [he.strs]; exact hs) h0
  | pairLast a n t hn hnx ht => exact .pairLast a n t (he.get hn) hnx (Denotes.ext he ht)
  | pairNext a b n m t u hn hnx hm hmd ht hu =>
    exact .pairNext a b n m t u (he.get hn) hnx (he.get hm) hmd (Denotes.ext he ht) (Denotes.ext he hu)
  | pairDot a b n m t u hd hn hnx hm hmd ht hu =>
    exact .pairDot a b n m t u hd (he.get hn) hnx (he.get hm) hmd (Denotes.ext he ht) (Denotes.ext he hu)
  | vec a xs ts hx hs => exact .vec a xs ts (by rw [he.vecs]; exact hx) (DenotesAll.ext he hs)
theorem Spec.DenotesAll.ext {d h h' v t} (he : Ext h h') (h1 : DenotesAll d h v t) : DenotesAll d h' v t := by
  cases h1 with
  | nil => exact .nil
  | cons x xs t ts hx hs => exact .cons x xs t ts (Denotes.ext he hx) (DenotesAll.ext he hs)
end

/-- A bound for each of finitely many elements gives a common bound. -/
theorem uniform_bound {α : Type} (P : α → Nat → Prop) : ∀ (xs : List α),
    (∀ e ∈ xs, ∃ N, ∀ f, N ≤ f → P e f) → ∃ N, ∀ f, N ≤ f → ∀ e ∈ xs, P e f
  | [], _ => ⟨0, fun _ _ e he => by cases he⟩
  | x :: xs, hx => by
    obtain ⟨N, hN⟩ := hx x (by simp)
    obtain ⟨M, hM⟩ := uniform_bound P xs (fun e he => hx e (by simp [he]))
    refine ⟨N + M, fun f hf e he => ?_⟩
    rcases List.mem_cons.1 he with rfl | he
    · exact hN f (by omega)
    · exact hM f (by omega) e he

/-! ### Building the result of `assoc-set!` -/

/-- What a step that only appends to the builder leaves alone. -/
structure BFrame (h : Heap) (b : Builder) (h' : Heap) (b' : Builder) : Prop where
  nodes : ∀ a, a < h.nodes.length → b.tail ≠ some a → h'.nodes[a]? = h.nodes[a]?
  len : h.nodes.length ≤ h'.nodes.length
  tail : ∀ a, a < h.nodes.length → b.tail ≠ some a → b'.tail ≠ some a

theorem BFrame.refl (h : Heap) (b : Builder) : BFrame h b h b := ⟨fun _ _ _ => rfl, Nat.le_refl _, fun _ _ h => h⟩

theorem BFrame.trans {h1 h2 h3 b1 b2 b3} (x : BFrame h1 b1 h2 b2) (y : BFrame h2 b2 h3 b3) : BFrame h1 b1 h3 b3 :=
  ⟨fun a ha ht => by rw [y.nodes a (Nat.lt_of_lt_of_le ha x.len) (x.tail a ha ht), x.nodes a ha ht],
   Nat.le_trans x.len y.len, fun a ha ht => y.tail a (Nat.lt_of_lt_of_le ha x.len) (x.tail a ha ht)⟩

theorem BFrame.ofExt {h h' b} (e : Ext h h') : BFrame h b h' b := ⟨fun a ha _ => e.nodes a ha, e.len, fun _ _ h => h⟩

theorem BInv.tail_lt {h0 h : Heap} {b xs} (i : BInv h0 h b xs) {t} (ht : b.tail = some t) :
    h0.nodes.length ≤ t ∧ t < h.nodes.length := by
  obtain ⟨-, ns, hp, -, -, hge, hl⟩ := i
  rw [ht] at hl
  cases hg : ns.getLast? with
  | none => rw [hg] at hl; cases hl
  | some x =>
    rw [hg] at hl; simp at hl; subst hl
    have := List.mem_of_getLast? hg
    exact ⟨hge x this, hp.lt x this⟩

theorem push_frame {h0 h : Heap} {b xs d b' h'} (i : BInv h0 h b xs) (e : b.push d h = (.ok b', h')) :
    BFrame h b h' b' := by
  cases ht : b.tail with
  | none =>
    simp only [Builder.push, makeList, ht] at e
    rw [M.bind_ok (h := h) (a := h.nodes.length) (h' := { h with nodes := h.nodes ++ [⟨d, none, false⟩] }) rfl] at e
    simp at e
    obtain ⟨rfl, rfl⟩ := e
    exact ⟨fun a ha _ => by simp [List.getElem?_append_left ha], by simp, fun a ha _ => by simp; omega⟩
  | some t =>
    have hlt := (i.tail_lt ht).2
    obtain ⟨n, hn⟩ : ∃ n, h.nodes[t]? = some n := ⟨h.nodes[t], by simp [hlt]⟩
    have hn' : (h.nodes ++ [(⟨d, none, false⟩ : Node)])[t]? = some n := by
      rw [List.getElem?_append_left hlt]; exact hn
    have hl2 : t < (h.nodes ++ [(⟨d, none, false⟩ : Node)]).length := by simp; omega
    simp only [Builder.push, makeList, ht] at e
    rw [M.bind_ok (h := h) (a := h.nodes.length) (h' := { h with nodes := h.nodes ++ [⟨d, none, false⟩] }) rfl] at e
    rw [M.bind_ok (getNode_ok (h := { h with nodes := h.nodes ++ [(⟨d, none, false⟩ : Node)] }) hn')] at e
    rw [M.bind_ok (a := ()) (h' := { h with nodes := (h.nodes ++ [(⟨d, none, false⟩ : Node)]).set t { n with next := some h.nodes.length } })
      (by simp only [setNode, if_pos hl2])] at e
    simp at e
    obtain ⟨rfl, rfl⟩ := e
    refine ⟨fun a ha hne => ?_, by simp, fun a ha _ => by simp; omega⟩
    rw [ht] at hne
    have : t ≠ a := fun e => hne (by rw [e])
    show ((h.nodes ++ [(⟨d, none, false⟩ : Node)]).set t _)[a]? = _
    rw [List.getElem?_set_ne this, List.getElem?_append_left ha]

/-- `cons` builds the pair, and it stays that pair as long as its own nodes and the old heap are not touched. -/
theorem cons_pairOf {h0 h : Heap} {k v : Obj} {fuel} (e0 : Ext h0 h) (hd : OrdinaryCdr h0 v fuel) :
    ∃ z h1, cons fuel k v h = (.ok z, h1) ∧ Ext h h1 ∧ z.v = .list h.nodes.length ∧
      h.nodes.length < h1.nodes.length ∧
      ∀ h2, Ext h0 h2 → (∀ a, h.nodes.length ≤ a → a < h1.nodes.length → h2.nodes[a]? = h1.nodes[a]?) →
        PlainPairOf h2 z k v := by
  cases hv : v.v with
  | list b =>
    obtain ⟨ns, hp, hl, hnd⟩ := hd b hv
    obtain ⟨m, r, rfl, hm, hr⟩ := hp.cases_some
    refine ⟨_, _, cons_list hv (hp.mono e0) hl, ext_push2 _ _ _ (by omega), rfl, by simp, ?_⟩
    intro h2 e2 hk
    refine ⟨h.nodes.length, ⟨k, some b, false⟩, rfl, ?_, rfl, rfl, m, e2.get hm, ?_⟩
    · rw [hk _ (by omega) (by simp)]; simp
    · rw [hnd m hm]; exact hv
  | nil =>
    refine ⟨_, _, cons_nil hv, ext_push2 _ _ _ (by omega), rfl, by simp, ?_⟩
    intro h2 e2 hk
    refine ⟨h.nodes.length, ⟨k, none, false⟩, rfl, ?_, rfl, rfl, hv⟩
    rw [hk _ (by omega) (by simp)]; simp
  | _ =>
    refine ⟨_, _, cons_atom (by rw [hv]; simp) (by rw [hv]; simp), ext_push2 _ _ _ (by omega), rfl, by simp, ?_⟩
    intro h2 e2 hk
    refine ⟨h.nodes.length, ⟨k, some (h.nodes.length + 1), false⟩, rfl, ?_, rfl, rfl, ⟨v, none, true⟩, ?_, by simp [hv, Val.ty]⟩
    · rw [hk _ (by omega) (by simp)]; simp
    · rw [hk _ (by omega) (by simp)]; simp

/-- Two lists related element by element. -/
def Rel2 {α β : Type} (R : α → β → Prop) : List α → List β → Prop
  | [], [] => True
  | x :: xs, y :: ys => R x y ∧ Rel2 R xs ys
  | _, _ => False

/-- An element of the result of `assoc-set!`: a new pair if the old one matched, else the old one. -/
def SetRel (h0 : Heap) (mt : Obj → Bool) (key value : Obj) (h : Heap) (e z : Obj) : Prop :=
  if matchE h0 mt e = true then PlainPairOf h z key value ∧ ∃ a, z.v = .list a ∧ h0.nodes.length ≤ a else z = e

theorem BInv.ext0 {h0 h b xs} (i : BInv h0 h b xs) : Ext h0 h := i.1

theorem setLoop_spec {h0 : Heap} {test mt key value n0} (hd : OrdinaryCdr h0 value n0) :
    ∀ {ns : List (Addr × Node)} {p fuel h b found ys}, BInv h0 h b ys → Path h0 p ns →
    (∀ x ∈ ns, TestOk h0 test mt x.2.data) → ns.length + n0 < fuel →
    ∃ b' h' zs, setLoop test key value fuel b found p h =
        (.ok (b', found || (ns.map (·.2.data)).any (matchE h0 mt)), h') ∧
      BInv h0 h' b' (ys ++ zs) ∧ BFrame h b h' b' ∧
      ∀ h2, Ext h0 h2 → (∀ a, h.nodes.length ≤ a → a < h'.nodes.length → b'.tail ≠ some a →
          (∃ n n', h'.nodes[a]? = some n ∧ h2.nodes[a]? = some n' ∧ n'= n)) →
        Rel2 (SetRel h0 mt key value h2) (ns.map (·.2.data)) zs
  | [], p, 0, _, _, _, _, _, _, _, hf => by simp at hf
  | [], p, fuel + 1, h, b, found, ys, i, hp, _, _ => by
    simp [Path] at hp; subst hp
    exact ⟨b, h, [], by simp [setLoop], by simpa using i, BFrame.refl h b, fun _ _ _ => trivial⟩
  | (a, n) :: r, p, 0, _, _, _, _, _, _, _, hf => by simp at hf
  | (a, n) :: r, p, fuel + 1, h, b, found, ys, i, ⟨h1, h2, h3⟩, ht, hf => by
    subst h1
    have htr : ∀ x ∈ r, TestOk h0 test mt x.2.data := fun x hx => ht x (by simp [hx])
    simp at hf
    by_cases hm : matchE h0 mt n.data = true
    · obtain ⟨z, hc, ec, extc, hz, hlt, hpair⟩ := cons_pairOf (h := h) (k := key) i.ext0 (fuel := fuel)
        (v := value) (fun a hv => by
          obtain ⟨ms, k1, k2, k3⟩ := hd a hv
          exact ⟨ms, k1, by omega, k3⟩)
      have ic := i.mono extc
      obtain ⟨b1, h1, e1, i1, -⟩ := ic.push z
      have f1 := push_frame ic e1
      obtain ⟨b2, h2', zs, e2, i2, f2, hrel⟩ := setLoop_spec hd (found := true) (fuel := fuel) i1 h3 htr (by omega)
      have fAll := ((BFrame.ofExt (b := b) extc).trans f1).trans f2
      refine ⟨b2, h2', z :: zs, ?_, by simpa using i2, fAll, ?_⟩
      · simp only [setLoop]
        rw [M.bind_ok (getNode_ok (i.ext0.get h2)), M.bind_ok (entryTest_ok (ht (a, n) (by simp)) i.ext0), if_pos hm,
          M.bind_ok ec, M.bind_ok e1, e2]
        simp [hm]
      · intro hh eh hk
        have hbt : ∀ a, h.nodes.length ≤ a → b.tail ≠ some a := by
          intro a ha hb
          have := (i.tail_lt hb).2
          omega
        refine ⟨?_, hrel hh eh (fun x hx1 hx2 hx3 => hk x (by have := f1.len; have := extc.len; omega) hx2 hx3)⟩
        unfold SetRel
        rw [if_pos hm]
        refine ⟨hpair hh eh ?_, h.nodes.length, hz, i.ext0.len⟩
        intro x hx1 hx2
        have hne := hbt x hx1
        have hb1 : b1.tail ≠ some x := f1.tail x hx2 hne
        have hb2 : b2.tail ≠ some x := f2.tail x (Nat.lt_of_lt_of_le hx2 f1.len) hb1
        have hx3 : x < h2'.nodes.length := Nat.lt_of_lt_of_le hx2 (Nat.le_trans f1.len f2.len)
        obtain ⟨q, q', k1, k2, rfl⟩ := hk x (by omega) hx3 hb2
        rw [k2, ← k1, f2.nodes x (Nat.lt_of_lt_of_le hx2 f1.len) hb1, f1.nodes x hx2 hne]
    · obtain ⟨b1, h1, e1, i1, -⟩ := i.push n.data
      have f1 := push_frame i e1
      obtain ⟨b2, h2', zs, e2, i2, f2, hrel⟩ := setLoop_spec hd (found := found) (fuel := fuel) i1 h3 htr (by omega)
      refine ⟨b2, h2', n.data :: zs, ?_, by simpa using i2, f1.trans f2, ?_⟩
      · simp only [setLoop]
        rw [M.bind_ok (getNode_ok (i.ext0.get h2)), M.bind_ok (entryTest_ok (ht (a, n) (by simp)) i.ext0), if_neg hm,
          M.bind_ok e1, e2]
        simp [hm]
      · intro hh eh hk
        refine ⟨?_, hrel hh eh (fun x hx1 hx2 hx3 => hk x (by have := f1.len; omega) hx2 hx3)⟩
        unfold SetRel
        rw [if_neg hm]

theorem Rel2.all_eq {h0 : Heap} {mt key value h} : ∀ {xs zs : List Obj}, Rel2 (SetRel h0 mt key value h) xs zs →
    xs.any (matchE h0 mt) = false → zs = xs
  | [], [], _, _ => rfl
  | x :: xs, z :: zs, ⟨h1, h2⟩, hn => by
    simp at hn
    unfold SetRel at h1
    rw [if_neg (by simp [hn.1])] at h1
    rw [h1, Rel2.all_eq h2 (by simpa using hn.2)]
  | [], _ :: _, h, _ => by simp [Rel2] at h
  | _ :: _, [], h, _ => by simp [Rel2] at h

/-- The result of `assoc-set!` and `assq-set!`: a proper list; if some entry matched, the same entries with the matching ones
replaced by pairs of the key and the value, otherwise such a pair followed by the entries. -/
theorem assSet_spec {h : Heap} {test mt key value n0 al as xs fuel} (hd : OrdinaryCdr h value n0)
    (hl : RawList h al as xs) (ht : ∀ e ∈ xs, TestOk h test mt e) (hf : xs.length + n0 < fuel) :
    ∃ r h' as' zs, assSetG test fuel al key value h = (.ok r, h') ∧ Ext h h' ∧ ProperList h' r as' zs ∧
      ((xs.any (matchE h mt) = true ∧ Rel2 (SetRel h mt key value h') xs zs) ∨
       (xs.any (matchE h mt) = false ∧ ∃ p, PlainPairOf h' p key value ∧ (∃ a, p.v = .list a ∧ h.nodes.length ≤ a) ∧ zs = p :: xs)) := by
  obtain ⟨p, ns, hs, hp, -, hx⟩ := hl
  have hlen : ns.length = xs.length := by rw [← hx]; simp
  cases hv : al.v with
  | nil =>
    rw [hv] at hs; cases hs
    cases ns with
    | cons y ys => exact absurd hp.1 (by simp)
    | nil =>
      simp at hx; subst hx
      obtain ⟨z, h1, e1, x1, hz, hlt, hpair⟩ := cons_pairOf (h := h) (k := key) (Ext.refl h) (fuel := fuel)
        (v := value) (fun a hv => by
          obtain ⟨ms, k1, k2, k3⟩ := hd a hv
          exact ⟨ms, k1, by omega, k3⟩)
      obtain ⟨b, h2, e2, i2, -⟩ := BInv.pushAll (h0 := h1) (ys := [z]) (BInv.empty h1)
      obtain ⟨o, h3, as3, e3, x3, pl, -⟩ := i2.finish
      refine ⟨o, h3, as3, [z], ?_, x1.trans x3, by simpa using pl, .inr ⟨rfl, z, ?_, ⟨_, hz, Nat.le_refl _⟩, rfl⟩⟩
      · simp only [assSetG, hv, acons]
        rw [M.bind_ok e1]
        simp only [Obj.nil, list]
        rw [M.bind_ok e2, e3]
      · exact hpair h3 (x1.trans x3) (fun a _ hlt => x3.nodes a hlt)
  | list a =>
    rw [hv] at hs; cases hs
    have htn : ∀ x ∈ ns, TestOk h test mt x.2.data := fun x hxm => ht _ (by rw [← hx]; exact List.mem_map.2 ⟨x, hxm, rfl⟩)
    obtain ⟨b, h1, zs, e1, i1, f1, hrel⟩ := setLoop_spec (key := key) hd (found := false) (fuel := fuel) (BInv.empty h) hp htn (by omega)
    simp only [Bool.false_or, hx, List.nil_append] at e1 i1 hrel
    have hlt1 : ∀ {x}, x < h1.nodes.length → ∃ n, h1.nodes[x]? = some n := fun {x} hx => ⟨h1.nodes[x], by simp [hx]⟩
    have hself : ∀ hh, Ext h1 hh → Rel2 (SetRel h mt key value hh) xs zs := fun hh eh =>
      hrel hh (i1.ext0.trans eh) (fun x _ hx2 _ => by
        obtain ⟨n, hn⟩ := hlt1 hx2
        exact ⟨n, n, hn, eh.get hn, rfl⟩)
    by_cases hany : xs.any (matchE h mt) = true
    · obtain ⟨o, h2, as2, e2, x2, pl, -⟩ := i1.finish
      have x12 : Ext h1 h2 := by
        cases hb : b.head with
        | none => rw [hb] at e2; cases e2; exact Ext.refl _
        | some q => rw [hb] at e2; cases e2; exact ext_newId _ _ (by omega)
      refine ⟨o, h2, as2, zs, ?_, x2, pl, .inl ⟨hany, hself h2 x12⟩⟩
      simp only [assSetG, hv]
      rw [M.bind_ok e1]
      simp only [hany, if_true]
      exact e2
    · simp only [Bool.not_eq_true] at hany
      obtain rfl : zs = xs := Rel2.all_eq (hself h1 (Ext.refl _)) hany
      obtain ⟨z, h2, e2, x2, hz, hlt, hpair⟩ := cons_pairOf (h := h1) (k := key) i1.ext0 (fuel := fuel)
        (v := value) (fun a hv => by
          obtain ⟨ms, k1, k2, k3⟩ := hd a hv
          exact ⟨ms, k1, by omega, k3⟩)
      have i2 := i1.mono x2
      obtain ⟨-, ms, mp, mx, md, mge, mt'⟩ := i2
      cases hb : b.head with
      | none =>
        rw [hb] at mp
        cases ms with
        | cons y ys => exact absurd mp.1 (by simp)
        | nil =>
          simp at mx; subst mx
          simp at hx
          subst hx
          simp [Path] at hp
      | some hd0 =>
        rw [hb] at mp
        have x3 := ext_push2 h2 [⟨z, some hd0, false⟩] (h2.nextId + 1) (by omega)
        refine ⟨⟨h2.nextId, .list h2.nodes.length⟩,
          { h2 with nodes := h2.nodes ++ [⟨z, some hd0, false⟩], nextId := h2.nextId + 1 },
          h2.nodes.length :: ms.map (·.1), z :: zs, ?_, (i1.ext0.trans x2).trans x3, ?_,
          .inr ⟨hany, z, ?_, ⟨_, hz, i1.ext0.len⟩, rfl⟩⟩
        · simp only [assSetG, hv]
          rw [M.bind_ok e1]
          simp only [hany]
          rw [if_neg (by simp), M.bind_ok e2]
          simp only [makeList, hb]
          rw [M.bind_ok (h := h2) (a := h2.nodes.length) (h' := { h2 with nodes := h2.nodes ++ [⟨z, none, false⟩] }) rfl,
            M.bind_ok (setNode_last h2 _ _)]
          rfl
        · refine ⟨some h2.nodes.length, (h2.nodes.length, ⟨z, some hd0, false⟩) :: ms, rfl, ⟨rfl, by simp, mp.mono x3⟩, rfl, by simp [mx], ?_⟩
          intro x hxm
          rcases List.mem_cons.1 hxm with rfl | hxm
          · rfl
          · exact md x hxm
        · exact hpair _ ((i1.ext0.trans x2).trans x3) (fun a _ hlt => x3.nodes a hlt)
  | _ => rw [hv] at hs; cases hs

/-! ### `assoc-remove!` -/

/-- The list without its first element satisfying `p`. -/
def dropFirst (p : Obj → Bool) : List Obj → List Obj
  | [] => []
  | x :: xs => if p x then xs else x :: dropFirst p xs

theorem removeLoop_spec {h0 : Heap} {test mt} :
    ∀ {ns : List (Addr × Node)} {p fuel h b removed ys}, BInv h0 h b ys → Path h0 p ns →
    (∀ x ∈ ns, TestOk h0 test mt x.2.data) → ns.length < fuel →
    ∃ b' h', removeLoop test fuel b removed p h = (.ok b', h') ∧
      BInv h0 h' b' (ys ++ (if removed then ns.map (·.2.data) else dropFirst (matchE h0 mt) (ns.map (·.2.data))))
  | [], p, 0, _, _, _, _, _, _, _, hf => by simp at hf
  | [], p, fuel + 1, h, b, removed, ys, i, hp, _, _ => by
    simp [Path] at hp; subst hp
    exact ⟨b, h, by simp [removeLoop], by cases removed <;> simpa [dropFirst] using i⟩
  | (a, n) :: r, p, 0, _, _, _, _, _, _, _, hf => by simp at hf
  | (a, n) :: r, p, fuel + 1, h, b, removed, ys, i, ⟨h1, h2, h3⟩, ht, hf => by
    subst h1
    have htr : ∀ x ∈ r, TestOk h0 test mt x.2.data := fun x hx => ht x (by simp [hx])
    simp at hf
    cases removed with
    | true =>
      obtain ⟨b1, h1, e1, i1, -⟩ := i.push n.data
      obtain ⟨b2, h2', e2, i2⟩ := removeLoop_spec (removed := true) (fuel := fuel) i1 h3 htr (by omega)
      refine ⟨b2, h2', ?_, by simpa using i2⟩
      simp only [removeLoop]
      rw [M.bind_ok (getNode_ok (i.ext0.get h2))]
      simp only [if_true]
      rw [M.bind_ok (x := pure false) (a := false) (h' := h) rfl]
      simp only [Bool.false_eq_true, if_false]
      rw [M.bind_ok e1, e2]
    | false =>
      by_cases hm : matchE h0 mt n.data = true
      · obtain ⟨b2, h2', e2, i2⟩ := removeLoop_spec (removed := true) (fuel := fuel) i h3 htr (by omega)
        refine ⟨b2, h2', ?_, by simpa [dropFirst, hm] using i2⟩
        simp only [removeLoop]
        rw [M.bind_ok (getNode_ok (i.ext0.get h2))]
        simp only [Bool.false_eq_true, if_false]
        rw [M.bind_ok (entryTest_ok (ht (a, n) (by simp)) i.ext0), if_pos hm, e2]
      · obtain ⟨b1, h1, e1, i1, -⟩ := i.push n.data
        obtain ⟨b2, h2', e2, i2⟩ := removeLoop_spec (removed := false) (fuel := fuel) i1 h3 htr (by omega)
        refine ⟨b2, h2', ?_, by simpa [dropFirst, hm] using i2⟩
        simp only [removeLoop]
        rw [M.bind_ok (getNode_ok (i.ext0.get h2))]
        simp only [Bool.false_eq_true, if_false]
        rw [M.bind_ok (entryTest_ok (ht (a, n) (by simp)) i.ext0), if_neg hm, M.bind_ok e1, e2]

end Pscm
