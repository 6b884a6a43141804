import Verif.HeapLemmas
/-! # Lemmas about the list builtins -/
namespace Pscm
open Spec

/-- The `next` pointers from `a` never end: they visit `s 0 = a`, `s 1`, `s 2`, … (a circular structure). -/
def Spec.Endless (h : Heap) (a : Addr) (s : Nat → Addr) : Prop :=
  s 0 = a ∧ ∀ i, ∃ n, h.nodes[s i]? = some n ∧ n.next = some (s (i + 1))

theorem Spec.Path.cases_some {h : Heap} {a : Addr} {ns} (hp : Path h (some a) ns) :
    ∃ n r, ns = (a, n) :: r ∧ h.nodes[a]? = some n ∧ Path h n.next r := by
  cases ns with
  | nil => simp [Path] at hp
  | cons x r =>
    obtain ⟨b, n⟩ := x
    obtain ⟨h1, h2, h3⟩ := hp
    cases h1
    exact ⟨n, r, rfl, h2, h3⟩

theorem lengthLoop_path {h : Heap} : ∀ {ns : List (Addr × Node)} {a fuel} {c : Int}, Path h (some a) ns →
    ns.length ≤ fuel → 0 ≤ c → c + ns.length < 2 ^ 31 → lengthLoop fuel c a h = (.ok (c + ns.length), h) := by
  intro ns
  induction ns with
  | nil => intro a fuel c hp; simp [Path] at hp
  | cons x r ih =>
    intro a fuel c hp hf hc hlt
    obtain ⟨n, r', e, h2, h3⟩ := hp.cases_some
    cases e
    cases fuel with
    | zero => simp at hf
    | succ fuel =>
      have hi : i32 (c + 1) = .ok (c + 1) := by
        simp only [List.length_cons] at hlt
        simp only [i32]
        rw [if_pos]; omega
      simp only [lengthLoop]
      rw [M.bind_ok (a := c + 1) (h' := h) (by simp [hi]), M.bind_ok (getNode_ok h2)]
      cases hn : n.next with
      | none =>
        rw [hn] at h3
        cases r with
        | nil => simp
        | cons y ys => exact absurd h3.1 (by simp)
      | some b =>
        rw [hn] at h3
        simp only [List.length_cons] at hf hlt
        show lengthLoop fuel (c + 1) b h = _
        rw [ih h3 (by omega) (by omega) (by omega)]
        simp only [List.length_cons]
        congr 2; omega

theorem reverseLoop_path {h0 : Heap} : ∀ {ns : List (Addr × Node)} {a fuel h} {res : Option Addr}
    {ms : List (Addr × Node)}, Ext h0 h → Path h0 (some a) ns → ns.length ≤ fuel → Path h res ms →
    (∀ x ∈ ms, x.2.dotted = false ∧ h0.nodes.length ≤ x.1) →
    ∃ q h' ks, reverseLoop fuel res a h = (.ok q, h') ∧ Ext h0 h' ∧ Path h' q ks ∧
      ks.map (·.2.data) = (ns.map (·.2.data)).reverse ++ ms.map (·.2.data) ∧
      (∀ x ∈ ks, x.2.dotted = false ∧ h0.nodes.length ≤ x.1) ∧ h'.nextId = h.nextId := by
  intro ns
  induction ns with
  | nil => intro a fuel h res ms _ hp; simp [Path] at hp
  | cons x r ih =>
    intro a fuel h res ms he hp hf hm hmd
    obtain ⟨n, r', e, h2, h3⟩ := hp.cases_some
    cases e
    cases fuel with
    | zero => simp at hf
    | succ fuel =>
      simp only [reverseLoop]
      rw [M.bind_ok (getNode_ok (he.get h2))]
      rw [M.bind_ok (h := h) (a := h.nodes.length) (h' := { h with nodes := h.nodes ++ [⟨n.data, res, false⟩] }) rfl]
      have he1 := he.trans (ext_push h ⟨n.data, res, false⟩)
      have hm1 : Path { h with nodes := h.nodes ++ [⟨n.data, res, false⟩] } (some h.nodes.length)
          ((h.nodes.length, ⟨n.data, res, false⟩) :: ms) :=
        ⟨rfl, by simp, hm.mono (ext_push h _)⟩
      have hmd1 : ∀ x ∈ (h.nodes.length, (⟨n.data, res, false⟩ : Node)) :: ms,
          x.2.dotted = false ∧ h0.nodes.length ≤ x.1 := by
        intro x hx
        rcases List.mem_cons.1 hx with rfl | hx
        · exact ⟨rfl, he.len⟩
        · exact hmd x hx
      cases hn : n.next with
      | none =>
        rw [hn] at h3
        cases r with
        | nil => exact ⟨_, _, _, rfl, he1, hm1, by simp, hmd1, rfl⟩
        | cons y ys => exact absurd h3.1 (by simp)
      | some b =>
        rw [hn] at h3
        simp only [List.length_cons] at hf
        obtain ⟨q, h', ks, e1, e2, e3, e4, e5, e6⟩ := ih he1 h3 (by omega : r.length ≤ fuel) hm1 hmd1
        refine ⟨q, h', ks, e1, e2, e3, by simp [e4], e5, e6⟩

theorem listRefLoop_path {h : Heap} : ∀ {ns : List (Addr × Node)} {a fuel} {i idx : Int}, Path h (some a) ns →
    ns.length ≤ fuel → i ≤ idx →
    listRefLoop fuel i idx a h =
      (match (ns.map (·.2.data))[(idx - i).toNat]? with | some x => .ok x | none => .err .evalError, h) := by
  intro ns
  induction ns with
  | nil => intro a fuel i idx hp; simp [Path] at hp
  | cons x r ih =>
    intro a fuel i idx hp hf hi
    obtain ⟨n, r', e, h2, h3⟩ := hp.cases_some
    cases e
    cases fuel with
    | zero => simp at hf
    | succ fuel =>
      simp only [listRefLoop]
      rw [M.bind_ok (getNode_ok h2)]
      by_cases hii : i = idx
      · subst hii; simp
      · rw [if_neg hii]
        have hpos : (idx - i).toNat = (idx - (i + 1)).toNat + 1 := by omega
        rw [hpos]
        cases hn : n.next with
        | none =>
          rw [hn] at h3
          cases r with
          | nil => simp
          | cons y ys => exact absurd h3.1 (by simp)
        | some b =>
          rw [hn] at h3
          simp only [List.length_cons] at hf
          show listRefLoop fuel (i + 1) idx b h = _
          rw [ih h3 (by omega) (by omega)]
          simp

theorem listTailLoop_path {h : Heap} : ∀ {ns : List (Addr × Node)} {p fuel k}, Path h p ns →
    ns.length < fuel → (k ≤ ns.length → ∃ q, listTailLoop fuel k p h = (.ok q, h) ∧ Path h q (ns.drop k)) ∧
      (ns.length < k → listTailLoop fuel k p h = (.err .evalError, h)) := by
  intro ns
  induction ns with
  | nil =>
    intro p fuel k hp hf
    simp [Path] at hp; subst hp
    cases fuel with
    | zero => simp at hf
    | succ fuel =>
      constructor
      · intro hk
        have : k = 0 := by simpa using hk
        subst this
        exact ⟨none, rfl, rfl⟩
      · intro hk
        cases k with
        | zero => simp at hk
        | succ k => rfl
  | cons x r ih =>
    intro p fuel k hp hf
    obtain ⟨a, n⟩ := x
    obtain ⟨h1, h2, h3⟩ := hp
    subst h1
    cases fuel with
    | zero => simp at hf
    | succ fuel =>
      cases k with
      | zero => exact ⟨fun _ => ⟨some a, rfl, rfl, h2, h3⟩, fun hk => by simp at hk⟩
      | succ k =>
        simp only [List.length_cons] at hf
        obtain ⟨i1, i2⟩ := ih (k := k) h3 (by omega : r.length < fuel)
        simp only [listTailLoop]
        rw [M.bind_ok (getNode_ok h2)]
        exact ⟨fun hk => by simpa using i1 (by simpa using hk), fun hk => i2 (by simpa using hk)⟩

theorem listHeadLoop_path {h0 : Heap} : ∀ {ns : List (Addr × Node)} {p fuel k h b xs}, BInv h0 h b xs →
    Path h0 p ns → ns.length < fuel →
    ∃ b' h', listHeadLoop fuel b k p h = (.ok (b', k - ns.length), h') ∧
      BInv h0 h' b' (xs ++ (ns.take k).map (·.2.data)) := by
  intro ns
  induction ns with
  | nil =>
    intro p fuel k h b xs i hp hf
    simp [Path] at hp; subst hp
    cases fuel with
    | zero => simp at hf
    | succ fuel =>
      refine ⟨b, h, ?_, by simpa using i⟩
      cases k <;> rfl
  | cons x r ih =>
    intro p fuel k h b xs i hp hf
    obtain ⟨a, n⟩ := x
    obtain ⟨h1, h2, h3⟩ := hp
    subst h1
    cases fuel with
    | zero => simp at hf
    | succ fuel =>
      cases k with
      | zero => exact ⟨b, h, by simp [listHeadLoop], by simpa using i⟩
      | succ k =>
        simp only [List.length_cons] at hf
        obtain ⟨b1, h1, e1, i1, -⟩ := i.push n.data
        obtain ⟨b2, h2', e2, i2⟩ := ih (k := k) i1 h3 (by omega : r.length < fuel)
        refine ⟨b2, h2', ?_, by simpa using i2⟩
        simp only [listHeadLoop]
        rw [M.bind_ok (getNode_ok (i.1.get h2)), M.bind_ok e1, e2]
        simp

theorem memLoop_path {test : Heap → Obj → Res Bool} {h : Heap} : ∀ {ns : List (Addr × Node)} {a fuel},
    Path h (some a) ns → ns.length ≤ fuel → ∀ {t : Obj → Bool}, (∀ x ∈ ns, test h x.2.data = .ok (t x.2.data)) →
    (∀ pre x suf, ns = pre ++ x :: suf → (∀ y ∈ pre, t y.2.data = false) → t x.2.data = true →
      memLoop test fuel a h = (.ok ⟨h.nextId, .list x.1⟩, { h with nextId := h.nextId + 1 })) ∧
    ((∀ x ∈ ns, t x.2.data = false) → memLoop test fuel a h = (.ok Obj.f, h)) := by
  intro ns
  induction ns with
  | nil => intro a fuel hp; simp [Path] at hp
  | cons x r ih =>
    intro a fuel hp hf t ht
    obtain ⟨n, r', e, h2, h3⟩ := hp.cases_some
    cases e
    cases fuel with
    | zero => simp at hf
    | succ fuel =>
      simp only [List.length_cons] at hf
      simp only [memLoop]
      rw [M.bind_ok (getNode_ok h2)]
      rw [M.bind_ok (h := h) (a := t n.data) (h' := h) (by simpa using ht (a, n) (by simp))]
      cases htn : t n.data with
      | true =>
        constructor
        · intro pre x suf hsplit hpre hx
          cases pre with
          | nil => simp at hsplit; obtain ⟨rfl, rfl⟩ := hsplit; rfl
          | cons y ys =>
            simp at hsplit
            obtain ⟨rfl, rfl⟩ := hsplit
            have := hpre (a, n) (by simp)
            simp [htn] at this
        · intro hall
          have := hall (a, n) (by simp)
          simp [htn] at this
      | false =>
        simp only [Bool.false_eq_true, if_false]
        cases hn : n.next with
        | none =>
          rw [hn] at h3
          cases r with
          | cons y ys => exact absurd h3.1 (by simp)
          | nil =>
            constructor
            · intro pre x suf hsplit hpre hx
              cases pre with
              | nil => simp at hsplit; obtain ⟨rfl, rfl⟩ := hsplit; simp [htn] at hx
              | cons y ys => simp at hsplit
            · intro _; rfl
        | some b =>
          rw [hn] at h3
          obtain ⟨i1, i2⟩ := ih h3 (by omega : r.length ≤ fuel) (t := t) (fun x hx => ht x (by simp [hx]))
          constructor
          · intro pre x suf hsplit hpre hx
            cases pre with
            | nil => simp at hsplit; obtain ⟨rfl, rfl⟩ := hsplit; simp [htn] at hx
            | cons y ys =>
              simp at hsplit
              exact i1 ys x suf hsplit.2 (fun z hz => hpre z (by simp [hz])) hx
          · intro hall
            exact i2 (fun x hx => hall x (by simp [hx]))

/-! ### `list?` -/

theorem isListLoop_total (h : Heap) : ∀ (k fuel count : Nat) (a : Addr), 10002 ≤ count + k → k < fuel →
    (isListLoop fuel count a h).1 ≠ .oof := by
  intro k
  induction k with
  | zero =>
    intro fuel count a hk hf
    cases fuel with
    | zero => omega
    | succ fuel => simp [isListLoop, show 10000 < count by omega]
  | succ k ih =>
    intro fuel count a hk hf
    cases fuel with
    | zero => omega
    | succ fuel =>
      simp only [isListLoop]
      split
      · simp
      · rw [M.bind_app]
        simp only [getNode]
        cases hn : h.nodes[a]? with
        | none => simp
        | some n =>
          simp only
          split
          · simp
          · cases n.next with
            | none => simp
            | some b => exact ih fuel (count + 1) b (by omega) (by omega)

theorem isListLoop_path {h : Heap} : ∀ {ns : List (Addr × Node)} {a fuel count}, Path h (some a) ns →
    ns.length ≤ fuel →
    ((∀ x ∈ ns, x.2.dotted = false) → count + ns.length ≤ 10001 → isListLoop fuel count a h = (.ok true, h)) ∧
    ((∀ x ∈ ns, x.2.dotted = false) → 10001 < count + ns.length → count ≤ 10001 →
       isListLoop fuel count a h = (.ok false, h)) ∧
    ((∃ x ∈ ns, x.2.dotted = true) → isListLoop fuel count a h = (.ok false, h)) := by
  intro ns
  induction ns with
  | nil => intro a fuel count hp; simp [Path] at hp
  | cons x r ih =>
    intro a fuel count hp hf
    obtain ⟨n, r', e, h2, h3⟩ := hp.cases_some
    cases e
    cases fuel with
    | zero => simp at hf
    | succ fuel =>
      simp only [List.length_cons] at hf
      by_cases hc : 10000 < count
      · simp only [isListLoop, if_pos hc]
        refine ⟨fun _ hl => ?_, fun _ _ _ => rfl, fun _ => rfl⟩
        simp only [List.length_cons] at hl
        omega
      · simp only [isListLoop, if_neg hc]
        rw [M.bind_ok (getNode_ok h2)]
        cases hd : n.dotted with
        | true =>
          refine ⟨fun hall _ => ?_, fun hall _ _ => ?_, fun _ => rfl⟩
          · have := hall (a, n) (by simp); simp [hd] at this
          · have := hall (a, n) (by simp); simp [hd] at this
        | false =>
          simp only [Bool.false_eq_true, if_false]
          cases hn : n.next with
          | none =>
            rw [hn] at h3
            cases r with
            | cons y ys => exact absurd h3.1 (by simp)
            | nil =>
              refine ⟨fun _ _ => rfl, fun _ hl _ => ?_, fun ⟨x, hx, hxd⟩ => ?_⟩
              · simp at hl; omega
              · simp at hx; subst hx; simp [hd] at hxd
          | some b =>
            rw [hn] at h3
            obtain ⟨i1, i2, i3⟩ := ih (count := count + 1) h3 (by omega : r.length ≤ fuel)
            refine ⟨fun hall hl => ?_, fun hall hl _ => ?_, fun ⟨x, hx, hxd⟩ => ?_⟩
            · exact i1 (fun x hx => hall x (by simp [hx])) (by simp at hl; omega)
            · exact i2 (fun x hx => hall x (by simp [hx])) (by simp at hl; omega) (by omega)
            · refine i3 ⟨x, ?_, hxd⟩
              rcases List.mem_cons.1 hx with rfl | hx
              · simp [hd] at hxd
              · exact hx

theorem isListLoop_endless {h : Heap} {a s} (hs : Endless h a s) : ∀ (k i fuel : Nat), i + k = 10001 → k < fuel →
    isListLoop fuel i (s i) h = (.ok false, h) := by
  intro k
  induction k with
  | zero =>
    intro i fuel hi hf
    cases fuel with
    | zero => omega
    | succ fuel => simp [isListLoop, show 10000 < i by omega]
  | succ k ih =>
    intro i fuel hi hf
    cases fuel with
    | zero => omega
    | succ fuel =>
      obtain ⟨n, hn, hnx⟩ := hs.2 i
      simp only [isListLoop, if_neg (show ¬ 10000 < i by omega)]
      rw [M.bind_ok (getNode_ok hn)]
      cases hd : n.dotted with
      | true => rfl
      | false =>
        simp only [Bool.false_eq_true, if_false, hnx]
        exact ih (i + 1) fuel (by omega) (by omega)

/-! ### `last-pair` -/

theorem lastPairLoop_path {h : Heap} {as : List Addr} {base : List (Addr × Node)} (hb : base.map (·.1) = as) {p0 : Option Addr}
    (hpb : Path h p0 base) :
    ∀ (k i fuel : Nat), as.length = 2 * i + k → 0 < k → k ≤ 2 * fuel →
    ∀ t hr, as[i]? = some t → as[2 * i]? = some hr →
    lastPairLoop fuel t hr h =
      (.ok ⟨h.nextId, .list (as.getD (if as.length % 2 = 1 then (as.length - 1) / 2 else as.length - 1) 0)⟩,
        { h with nextId := h.nextId + 1 }) := by
  have hlen : base.length = as.length := by rw [← hb]; simp
  have hat : ∀ i a, as[i]? = some a → ∃ n, h.nodes[a]? = some n ∧ n.next = as[i+1]? := by
    intro i a ha
    have hi : i < base.length := by rw [hlen]; exact getElem?_lt ha
    have hsplit : base = base.take i ++ base[i] :: base.drop (i + 1) := by
      simp
    have ha' : base[i].1 = a := by
      rw [← hb] at ha
      simp [List.getElem?_map, List.getElem?_eq_getElem hi] at ha
      exact ha
    have hp' := hpb
    rw [hsplit] at hp'
    obtain ⟨q, hq, -, -⟩ := Path.append_inv hp'
    obtain ⟨h1, h2, h3⟩ := hq
    refine ⟨base[i].2, by rw [← ha']; exact h2, ?_⟩
    rw [← hb, List.getElem?_map]
    cases hd : base.drop (i + 1) with
    | nil =>
      rw [hd] at h3
      have : base.length ≤ i + 1 := by simpa using hd
      rw [List.getElem?_eq_none this]
      exact h3
    | cons y ys =>
      rw [hd] at h3
      have : base[i+1]? = some y := by
        have := congrArg List.head? hd
        simpa using this
      rw [this]
      exact h3.1
  have hnd : as.Nodup := by rw [← hb]; exact hpb.nodup
  intro k
  induction k using Nat.strongRecOn with
  | ind k ih =>
  intro i fuel hk hk0 hf t hr ht hhr
  cases fuel with
  | zero => omega
  | succ fuel =>
    obtain ⟨n, hn, hnx⟩ := hat _ _ hhr
    simp only [lastPairLoop]
    rw [M.bind_ok (getNode_ok hn), hnx]
    cases h1 : as[2 * i + 1]? with
    | none =>
      have hle : as.length ≤ 2 * i + 1 := by
        rcases Nat.lt_or_ge (2 * i + 1) as.length with hlt | hge
        · rw [List.getElem?_eq_getElem hlt] at h1; cases h1
        · exact hge
      have hl : as.length = 2 * i + 1 := by omega
      have : as.getD (if as.length % 2 = 1 then (as.length - 1) / 2 else as.length - 1) 0 = t := by
        rw [hl, if_pos (by omega), show (2 * i + 1 - 1) / 2 = i by omega]
        simp [List.getD, ht]
      simp only
      rw [this]; rfl
    | some x1 =>
      obtain ⟨n1, hn1, hnx1⟩ := hat _ _ h1
      simp only
      rw [M.bind_ok (getNode_ok hn1), hnx1]
      cases h2 : as[2 * i + 1 + 1]? with
      | none =>
        have hlt : 2 * i + 1 < as.length := getElem?_lt h1
        have hle : as.length ≤ 2 * i + 1 + 1 := by
          rcases Nat.lt_or_ge (2 * i + 1 + 1) as.length with hlt | hge
          · rw [List.getElem?_eq_getElem hlt] at h2; cases h2
          · exact hge
        have hl : as.length = 2 * i + 2 := by omega
        have : as.getD (if as.length % 2 = 1 then (as.length - 1) / 2 else as.length - 1) 0 = x1 := by
          rw [hl, if_neg (by omega), show 2 * i + 2 - 1 = 2 * i + 1 by omega]
          simp [List.getD, h1]
        simp only
        rw [this]; rfl
      | some x2 =>
        have hlt : 2 * i + 1 + 1 < as.length := getElem?_lt h2
        obtain ⟨nt, hnt, hntx⟩ := hat _ _ ht
        simp only
        rw [M.bind_ok (getNode_ok hnt), hntx]
        have hi1 : i + 1 < as.length := by omega
        have hne : x2 ≠ as[i + 1] := by
          intro he
          have e2 : as[2 * i + 1 + 1] = x2 := by
            rw [List.getElem?_eq_getElem hlt] at h2; exact Option.some.inj h2
          rw [← e2] at he
          have := (List.getElem_inj hnd).1 he
          omega
        rw [List.getElem?_eq_getElem hi1]
        simp only [if_neg hne]
        exact ih (k - 2) (by omega) (i + 1) fuel (by omega) (by omega) (by omega) _ _
          (List.getElem?_eq_getElem hi1) (by rw [show 2 * (i + 1) = 2 * i + 1 + 1 by omega]; exact h2)

theorem pigeon : ∀ (n : Nat) (l : List Nat), l.Nodup → (∀ x ∈ l, x < n) → l.length ≤ n
  | 0, l, _, h => by
    cases l with
    | nil => simp
    | cons x xs => exact absurd (h x (by simp)) (by omega)
  | n + 1, l, hnd, h => by
    by_cases hm : n ∈ l
    · have := pigeon n (l.erase n) (hnd.erase n) (fun x hx => by
        have h1 := h x (List.mem_of_mem_erase hx)
        have h2 : x ≠ n := by intro e; subst e; exact (List.Nodup.not_mem_erase hnd) hx
        omega)
      rw [List.length_erase_of_mem hm] at this
      omega
    · have := pigeon n l hnd (fun x hx => by
        have h1 := h x hx
        have h2 : x ≠ n := by intro e; subst e; exact hm hx
        omega)
      omega

theorem endless_lt {h : Heap} {a s} (hs : Endless h a s) (i : Nat) : s i < h.nodes.length := by
  obtain ⟨n, hn, -⟩ := hs.2 i
  exact getElem?_lt hn

theorem endless_periodic {h : Heap} {a s} (hs : Endless h a s) :
    ∃ μ p, 0 < p ∧ ∀ i, μ ≤ i → s (i + p) = s i := by
  have hrep : ∃ i j, i < j ∧ s i = s j := by
    refine Classical.byContradiction fun hno => ?_
    have hnd : ((List.range (h.nodes.length + 1)).map s).Nodup := by
      rw [List.nodup_iff_pairwise_ne, List.pairwise_map]
      exact List.Pairwise.imp (fun {x y} hxy he => hno ⟨x, y, hxy, he⟩) List.pairwise_lt_range
    have := pigeon h.nodes.length _ hnd (by
      intro x hx
      obtain ⟨i, -, rfl⟩ := List.mem_map.1 hx
      exact endless_lt hs i)
    simp at this
    omega
  obtain ⟨i, j, hij, he⟩ := hrep
  refine ⟨i, j - i, by omega, ?_⟩
  have key : ∀ k, s (i + k + (j - i)) = s (i + k) := by
    intro k
    induction k with
    | zero => simp; rw [show i + (j - i) = j by omega, he]
    | succ k ih =>
      obtain ⟨n, hn, hnx⟩ := hs.2 (i + k + (j - i))
      obtain ⟨m, hm, hmx⟩ := hs.2 (i + k)
      rw [ih, hm] at hn
      have : m = n := Option.some.inj hn
      subst this
      rw [hmx] at hnx
      have := Option.some.inj hnx
      rw [show i + (k + 1) + (j - i) = i + k + (j - i) + 1 by omega, ← this]
      rfl
  intro k hk
  have := key (k - i)
  rwa [show i + (k - i) = k by omega] at this

theorem endless_meet {h : Heap} {a s} (hs : Endless h a s) : ∃ i, 0 < i ∧ s (2 * i) = s i := by
  obtain ⟨μ, p, hp, hper⟩ := endless_periodic hs
  refine ⟨(μ + 1) * p, Nat.mul_pos (by omega) hp, ?_⟩
  have hmul : ∀ q i, μ ≤ i → s (i + q * p) = s i := by
    intro q
    induction q with
    | zero => intro i _; simp
    | succ q ih =>
      intro i hi
      rw [Nat.succ_mul, ← Nat.add_assoc, hper _ (by omega), ih i hi]
  have hge : μ ≤ (μ + 1) * p := Nat.le_trans (by omega : μ ≤ μ + 1) (Nat.le_mul_of_pos_right _ hp)
  have := hmul (μ + 1) ((μ + 1) * p) hge
  rwa [show (μ + 1) * p + (μ + 1) * p = 2 * ((μ + 1) * p) by omega] at this

theorem lastPairLoop_endless {h : Heap} {a s} (hs : Endless h a s) {m : Nat} (hm : 0 < m) (hmeet : s (2 * m) = s m) :
    ∀ (k i fuel : Nat), i + k = m → 0 < k → k ≤ fuel →
      lastPairLoop fuel (s i) (s (2 * i)) h = (.err .evalError, h) := by
  intro k
  induction k with
  | zero => intro i fuel _ h0; omega
  | succ k ih =>
    intro i fuel hi _ hf
    cases fuel with
    | zero => omega
    | succ fuel =>
      obtain ⟨n, hn, hnx⟩ := hs.2 (2 * i)
      obtain ⟨n1, hn1, hnx1⟩ := hs.2 (2 * i + 1)
      obtain ⟨nt, hnt, hntx⟩ := hs.2 i
      simp only [lastPairLoop]
      rw [M.bind_ok (getNode_ok hn), hnx]
      simp only
      rw [M.bind_ok (getNode_ok hn1), hnx1]
      simp only
      rw [M.bind_ok (getNode_ok hnt), hntx]
      simp only
      have h2 : 2 * i + 1 + 1 = 2 * (i + 1) := by omega
      rw [h2]
      split
      · rfl
      · rename_i hne
        cases k with
        | zero =>
          have : i + 1 = m := by omega
          rw [this] at hne
          exact absurd hmeet hne
        | succ k => exact ih (i + 1) fuel (by omega) (by omega) (by omega)

end Pscm
