import Verif.HashIterSpec

/-! Lemmas for C132: chains of nodes and what the changes of a table do to them. -/
namespace Pscm.Itr
variable {K V A : Type} [DecidableEq K]

/-- The nodes reached from a pointer. -/
inductive Path (nodes : List (Node K V)) : Option Nat → List Nat → Prop
  | nil : Path nodes none []
  | cons {l : Nat} {n : Node K V} {is : List Nat} : nodes[l]? = some n → Path nodes n.next is → Path nodes (some l) (l :: is)

/-- The keys of nodes. -/
def keysOf (nodes : List (Node K V)) (is : List Nat) : List K := is.filterMap (fun i => (nodes[i]?).map (·.key))

/-- What holds of the tables of a program. -/
structure WF (hash : K → Nat) (t : Tbl K V) : Prop where
  cap : 0 < t.buckets.length
  next : ∀ (i : Nat) (n : Node K V), t.nodes[i]? = some n → ∀ j, n.next = some j → j < i ∧ ∀ m : Node K V, t.nodes[j]? = some m → slot hash t m.key = slot hash t n.key
  head : ∀ (b l : Nat), t.buckets[b]? = some (some l) → ∃ n : Node K V, t.nodes[l]? = some n ∧ slot hash t n.key = b
  nodup : ∀ (i : Nat) (is : List Nat), Path t.nodes (some i) is → (keysOf t.nodes is).Nodup

theorem Path.det {nodes : List (Node K V)} {l : Option Nat} {a b : List Nat} (ha : Path nodes l a) (hb : Path nodes l b) : a = b := by
  induction ha generalizing b with
  | nil => cases hb; rfl
  | cons hn _ ih =>
    cases hb with
    | cons hn' hp' => rw [hn] at hn'; cases hn'; rw [ih hp']

/-- Pointers that go to older nodes only. -/
def Desc (nodes : List (Node K V)) : Prop := ∀ (i : Nat) (n : Node K V), nodes[i]? = some n → ∀ j, n.next = some j → j < i

theorem WF.desc {hash : K → Nat} {t : Tbl K V} (h : WF hash t) : Desc t.nodes := fun i n hn j hj => (h.next i n hn j hj).1

theorem Path.exists {nodes : List (Node K V)} (hd : Desc nodes) : ∀ i, i < nodes.length → ∃ is, Path nodes (some i) is ∧ is.length ≤ i + 1 := by
  intro i
  induction i using Nat.strongRecOn with
  | _ i ih =>
    intro hi
    have hn : nodes[i]? = some nodes[i] := by simp [hi]
    cases hx : (nodes[i]).next with
    | none => exact ⟨[i], .cons hn (hx ▸ .nil), by simp⟩
    | some j =>
      have hj := hd i _ hn j hx
      obtain ⟨is, hp, hl⟩ := ih j hj (by omega)
      exact ⟨i :: is, .cons hn (hx ▸ hp), by simp; omega⟩

theorem Path.mem {nodes : List (Node K V)} {l : Option Nat} {is : List Nat} (h : Path nodes l is) : ∀ i ∈ is, ∃ n, nodes[i]? = some n := by
  induction h with
  | nil => simp
  | cons hn _ ih =>
    intro i hi
    rcases List.mem_cons.mp hi with rfl | hi
    · exact ⟨_, hn⟩
    · exact ih i hi

/-- Changes that keep keys and pointers keep the chains. -/
theorem Path.mono {nodes nodes' : List (Node K V)} (h : ∀ (i : Nat) (n : Node K V), nodes[i]? = some n → ∃ n' : Node K V, nodes'[i]? = some n' ∧ n'.next = n.next)
    {l : Option Nat} {is : List Nat} (hp : Path nodes l is) : Path nodes' l is := by
  induction hp with
  | nil => exact .nil
  | cons hn _ ih =>
    obtain ⟨n', h1, h2⟩ := h _ _ hn
    exact .cons h1 (h2 ▸ ih)

/-- Unlinking the node `r` after `p`: the chains lose at most `r`. -/
theorem Path.unlink {nodes : List (Node K V)} {p r : Nat} {np nr : Node K V} (hp : nodes[p]? = some np) (hr : nodes[r]? = some nr) (hpr : np.next = some r) (hne : r ≠ p)
    {l : Option Nat} {is : List Nat} (h : Path nodes l is) :
    ∃ is', Path (nodes.set p { np with next := nr.next }) l is' ∧ is'.Sublist is ∧ ∀ x ∈ is, x ≠ r → x ∈ is' := by
  have hlt : p < nodes.length := (List.getElem?_eq_some_iff.mp hp).1
  induction h with
  | nil => exact ⟨[], .nil, .slnil, by simp⟩
  | @cons l n is hn hq ih =>
    obtain ⟨t, h1, h2, h3⟩ := ih
    by_cases hl : l = p
    · subst hl
      rw [hp] at hn
      cases hn
      rw [hpr] at h1
      cases h1 with
      | @cons _ n' u hn' hu =>
        rw [List.getElem?_set_ne (Ne.symm hne), hr] at hn'
        cases hn'
        rw [hpr] at hq
        cases hq with
        | cons h5 h6 =>
          refine ⟨l :: u, .cons (n := { np with next := nr.next }) (by rw [List.getElem?_set_self hlt]) hu, ?_, ?_⟩
          · exact List.Sublist.cons_cons _ (List.Sublist.cons _ ((List.cons_sublist_cons).mp h2))
          · intro x hx hxr
            rcases List.mem_cons.mp hx with rfl | hx
            · exact List.mem_cons_self
            · rcases List.mem_cons.mp hx with rfl | hx
              · exact absurd rfl hxr
              · have := h3 x (List.mem_cons_of_mem _ hx) hxr
                rcases List.mem_cons.mp this with rfl | h
                · exact absurd rfl hxr
                · exact List.mem_cons_of_mem _ h
    · refine ⟨l :: t, .cons (by rw [List.getElem?_set_ne (Ne.symm hl)]; exact hn) h1, List.Sublist.cons_cons _ h2, ?_⟩
      intro x hx hxr
      rcases List.mem_cons.mp hx with rfl | hx
      · exact List.mem_cons_self
      · exact List.mem_cons_of_mem _ (h3 x hx hxr)

/-- What a search finds. -/
theorem findFrom_spec {nodes : List (Node K V)} {key : K} {l : Option Nat} {is : List Nat} (hp : Path nodes l is) :
    ∀ (f : Nat) (prev : Option Nat), is.length ≤ f →
    (findFrom nodes key f prev l = some none ∧ key ∉ keysOf nodes is) ∨
    ∃ (q : Option Nat) (i : Nat) (n : Node K V), findFrom nodes key f prev l = some (some (q, i)) ∧ i ∈ is ∧ nodes[i]? = some n ∧ n.key = key ∧
      ((q = prev ∧ l = some i) ∨ ∃ (p : Nat) (np : Node K V), q = some p ∧ p ∈ is ∧ nodes[p]? = some np ∧ np.next = some i) := by
  induction hp with
  | nil => intro f prev _; left; cases f <;> simp [findFrom, keysOf]
  | @cons l n is hn hp ih =>
    intro f prev hf
    cases f with
    | zero => simp at hf
    | succ f =>
      by_cases hk : n.key = key
      · right
        exact ⟨prev, l, n, by simp [findFrom, hn, hk], List.mem_cons_self, hn, hk, Or.inl ⟨rfl, rfl⟩⟩
      · rcases ih f (some l) (by simpa using hf) with ⟨h1, h2⟩ | ⟨q, i, m, h1, h2, h3, h4, h5⟩
        · left
          refine ⟨by simp [findFrom, hn, hk, h1], ?_⟩
          simp only [keysOf, List.filterMap_cons, hn, Option.map_some, List.mem_cons, not_or]
          exact ⟨fun h => hk h.symm, h2⟩
        · right
          refine ⟨q, i, m, by simp [findFrom, hn, hk, h1], List.mem_cons_of_mem _ h2, h3, h4, ?_⟩
          rcases h5 with ⟨rfl, h6⟩ | ⟨p, np, h6, h7, h8, h9⟩
          · exact Or.inr ⟨l, n, rfl, List.mem_cons_self, hn, h6⟩
          · exact Or.inr ⟨p, np, h6, List.mem_cons_of_mem _ h7, h8, h9⟩

theorem keysOf_congr {nodes nodes' : List (Node K V)} {is : List Nat} (h : ∀ i ∈ is, (nodes'[i]?).map (·.key) = (nodes[i]?).map (·.key)) : keysOf nodes' is = keysOf nodes is := by
  unfold keysOf
  induction is with
  | nil => rfl
  | cons i is ih =>
    rw [List.filterMap_cons, List.filterMap_cons, h i List.mem_cons_self, ih (fun j hj => h j (List.mem_cons_of_mem _ hj))]

theorem keysOf_sublist {nodes : List (Node K V)} {is js : List Nat} (h : is.Sublist js) : (keysOf nodes is).Sublist (keysOf nodes js) := h.filterMap _

theorem mem_keysOf {nodes : List (Node K V)} {is : List Nat} {i : Nat} {n : Node K V} (hi : i ∈ is) (hn : nodes[i]? = some n) : n.key ∈ keysOf nodes is := by
  unfold keysOf
  exact List.mem_filterMap.mpr ⟨i, hi, by simp [hn]⟩

theorem of_mem_keysOf {nodes : List (Node K V)} {is : List Nat} {k : K} (h : k ∈ keysOf nodes is) : ∃ (i : Nat) (n : Node K V), i ∈ is ∧ nodes[i]? = some n ∧ n.key = k := by
  unfold keysOf at h
  obtain ⟨i, hi, h⟩ := List.mem_filterMap.mp h
  cases hn : nodes[i]? with
  | none => simp [hn] at h
  | some n => exact ⟨i, n, hi, hn, by simpa [hn] using h⟩

/-- The chain of a bucket. -/
theorem WF.chain {hash : K → Nat} {t : Tbl K V} (h : WF hash t) {b : Nat} {head : Option Nat} (hb : t.buckets[b]? = some head) : ∃ is, Path t.nodes head is ∧ is.length ≤ t.nodes.length := by
  cases head with
  | none => exact ⟨[], .nil, by simp⟩
  | some l =>
    obtain ⟨n, hn, _⟩ := h.head b l hb
    have hl := (List.getElem?_eq_some_iff.mp hn).1
    obtain ⟨is, hp, hi⟩ := Path.exists h.desc l hl
    exact ⟨is, hp, by omega⟩

/-- The nodes of a chain of a bucket have their keys there. -/
theorem Path.slots {hash : K → Nat} {t : Tbl K V} (h : WF hash t) {l : Option Nat} {is : List Nat} (hp : Path t.nodes l is) {b : Nat}
    (hb : ∀ i n, l = some i → t.nodes[i]? = some n → slot hash t n.key = b) : ∀ i ∈ is, ∀ n : Node K V, t.nodes[i]? = some n → slot hash t n.key = b := by
  induction hp with
  | nil => simp
  | @cons l n is hn hp ih =>
    intro i hi m hm
    rcases List.mem_cons.mp hi with rfl | hi
    · exact hb _ m rfl hm
    · refine ih ?_ i hi m hm
      intro j o hj ho
      rw [(h.next l n hn j hj).2 o ho]
      exact hb l n rfl hn

theorem slot_lt {hash : K → Nat} {t : Tbl K V} (h : WF hash t) (k : K) : slot hash t k < t.buckets.length := Nat.mod_lt _ h.cap

/-- `i` is a node of the table. -/
def Live (t : Tbl K V) (i : Nat) : Prop := ∃ (b : Nat) (head : Option Nat) (is : List Nat), t.buckets[b]? = some head ∧ Path t.nodes head is ∧ i ∈ is

theorem Live.home {hash : K → Nat} {t : Tbl K V} (h : WF hash t) {i : Nat} {n : Node K V} (hl : Live t i) (hn : t.nodes[i]? = some n) :
    ∃ (head : Option Nat) (is : List Nat), t.buckets[slot hash t n.key]? = some head ∧ Path t.nodes head is ∧ i ∈ is ∧ is.length ≤ t.nodes.length := by
  obtain ⟨b, head, is, hb, hp, hi⟩ := hl
  have hs : slot hash t n.key = b := by
    refine Path.slots h hp ?_ i hi n hn
    intro j m hj hm
    subst hj
    obtain ⟨m', h1, h2⟩ := h.head b j hb
    rw [hm] at h1
    cases h1
    exact h2
  obtain ⟨js, hq, hl⟩ := h.chain hb
  rw [Path.det hp hq] at hi
  exact ⟨head, js, hs ▸ hb, hq, hi, hl⟩

theorem WF.pathNodup {hash : K → Nat} {t : Tbl K V} (h : WF hash t) {l : Option Nat} {is : List Nat} (hp : Path t.nodes l is) : (keysOf t.nodes is).Nodup := by
  cases l with
  | none => cases hp; simp [keysOf]
  | some i => exact h.nodup i is hp

theorem nodup_inj {nodes : List (Node K V)} {is : List Nat} (h : (keysOf nodes is).Nodup) {i j : Nat} {n m : Node K V} (hi : i ∈ is) (hj : j ∈ is) (hn : nodes[i]? = some n) (hm : nodes[j]? = some m)
    (he : n.key = m.key) : i = j := by
  induction is with
  | nil => cases hi
  | cons x is ih =>
    have htl : (keysOf nodes is).Nodup := h.sublist (keysOf_sublist (List.sublist_cons_self x is))
    have hx : ∀ y ∈ is, ∀ o p : Node K V, nodes[x]? = some o → nodes[y]? = some p → o.key ≠ p.key := by
      intro y hy o p ho hp e
      simp only [keysOf, List.filterMap_cons, ho, Option.map_some, List.nodup_cons] at h
      exact h.1 (e ▸ mem_keysOf hy hp)
    rcases List.mem_cons.mp hi with rfl | hi2
    · rcases List.mem_cons.mp hj with rfl | hj
      · rfl
      · exact absurd he (hx j hj n m hn hm)
    ·
      rcases List.mem_cons.mp hj with hj2 | hj2
      · subst hj2
        exact absurd he.symm (hx i hi2 m n hm hn)
      · exact ih htl hi2 hj2

/-- A search finds the node of the key that is in the table, if there is one. -/
theorem find_spec {hash : K → Nat} {t : Tbl K V} (h : WF hash t) (k : K) :
    (find hash t k = some none ∧ ∀ (i : Nat) (n : Node K V), Live t i → t.nodes[i]? = some n → n.key ≠ k) ∨
    ∃ (q : Option Nat) (i : Nat) (n : Node K V), find hash t k = some (some (q, i)) ∧ Live t i ∧ t.nodes[i]? = some n ∧ n.key = k ∧
      ((q = none ∧ t.buckets[slot hash t k]? = some (some i)) ∨ ∃ (p : Nat) (np : Node K V), q = some p ∧ t.nodes[p]? = some np ∧ np.next = some i) := by
  have hs := slot_lt h k
  have hb : t.buckets[slot hash t k]? = some t.buckets[slot hash t k] := by simp [hs]
  obtain ⟨is, hp, hl⟩ := h.chain hb
  rcases findFrom_spec (key := k) hp t.nodes.length none hl with ⟨h1, h2⟩ | ⟨q, i, n, h1, h2, h3, h4, h5⟩
  · left
    refine ⟨by simp only [find, hb, h1], ?_⟩
    intro i n hli hn he
    obtain ⟨head, js, g1, g2, g3, _⟩ := Live.home h hli hn
    rw [he, hb] at g1
    cases g1
    rw [Path.det g2 hp] at g3
    exact h2 (he ▸ mem_keysOf g3 hn)
  · right
    refine ⟨q, i, n, by simp only [find, hb, h1], ⟨_, _, is, hb, hp, h2⟩, h3, h4, ?_⟩
    rcases h5 with ⟨rfl, h6⟩ | ⟨p, np, h6, _, h8, h9⟩
    · exact Or.inl ⟨rfl, by rw [hb, h6]⟩
    · exact Or.inr ⟨p, np, h6, h8, h9⟩

theorem ref_live {hash : K → Nat} {t : Tbl K V} (h : WF hash t) {i : Nat} {n : Node K V} (hl : Live t i) (hn : t.nodes[i]? = some n) : ref hash t n.key = some (some n.val) := by
  rcases find_spec h n.key with ⟨_, h2⟩ | ⟨q, j, m, h1, h2, h3, h4, _⟩
  · exact absurd rfl (h2 i n hl hn)
  · obtain ⟨hd, js, g1, g2, g3, _⟩ := Live.home h hl hn
    obtain ⟨hd', js', g1', g2', g3', _⟩ := Live.home h h2 h3
    rw [h4, g1] at g1'
    cases g1'
    rw [Path.det g2' g2] at g3'
    have := nodup_inj (h.pathNodup g2) g3 g3' hn h3 h4.symm
    subst this
    rw [hn] at h3
    cases h3
    simp only [ref, h1, hn]

theorem of_ref {hash : K → Nat} {t : Tbl K V} (h : WF hash t) {k : K} {v : V} (hr : ref hash t k = some (some v)) : ∃ (i : Nat) (n : Node K V), Live t i ∧ t.nodes[i]? = some n ∧ n.key = k ∧ n.val = v := by
  rcases find_spec h k with ⟨h1, _⟩ | ⟨q, j, m, h1, h2, h3, h4, _⟩
  · simp [ref, h1] at hr
  · simp only [ref, h1, h3, Option.some.injEq] at hr
    exact ⟨j, m, h2, h3, h4, hr⟩

/-- What one change does: chains of old nodes lose at most the removed node, nodes of the table stay, except the removed one. -/
structure Keeps (t t' : Tbl K V) (gone : Nat → Prop) : Prop where
  len : t'.buckets.length = t.buckets.length
  node : ∀ (i : Nat) (n : Node K V), t.nodes[i]? = some n → ∃ n' : Node K V, t'.nodes[i]? = some n' ∧ n'.key = n.key
  path : ∀ (l : Option Nat) (is : List Nat), Path t.nodes l is → ∃ is', Path t'.nodes l is' ∧ is'.Sublist is ∧ ∀ x ∈ is, ¬ gone x → x ∈ is'
  live : ∀ i, Live t i → ¬ gone i → Live t' i

theorem Keeps.refl (t : Tbl K V) (g : Nat → Prop) : Keeps t t g := ⟨rfl, fun _ n h => ⟨n, h, rfl⟩, fun _ is h => ⟨is, h, List.Sublist.refl _, fun _ hx _ => hx⟩, fun _ h _ => h⟩

/-- The nodes whose key a change removes. -/
def Gone (t : Tbl K V) (o : Op K V) (x : Nat) : Prop := ∃ (k : K) (n : Node K V), o = .remove k ∧ t.nodes[x]? = some n ∧ n.key = k

theorem keysOf_keeps {t t' : Tbl K V} {g : Nat → Prop} (h : Keeps t t' g) {is : List Nat} (hm : ∀ i ∈ is, ∃ n : Node K V, t.nodes[i]? = some n) : keysOf t'.nodes is = keysOf t.nodes is := by
  refine keysOf_congr ?_
  intro i hi
  obtain ⟨n, hn⟩ := hm i hi
  obtain ⟨n', hn', hk⟩ := h.node i n hn
  simp [hn, hn', hk]

theorem slot_keeps {hash : K → Nat} {t t' : Tbl K V} {g : Nat → Prop} (h : Keeps t t' g) (k : K) : slot hash t' k = slot hash t k := by simp [slot, h.len]

/-- Changes of nodes and buckets that allocate nothing keep the chains well-formed. -/
theorem WF.of_keeps {hash : K → Nat} {t t' : Tbl K V} {g : Nat → Prop} (hw : WF hash t) (h : Keeps t t' g) (hlen : t'.nodes.length = t.nodes.length)
    (hnext : ∀ (i : Nat) (n' : Node K V), t'.nodes[i]? = some n' → ∀ j, n'.next = some j → j < i ∧ ∀ m : Node K V, t.nodes[j]? = some m → slot hash t m.key = slot hash t n'.key)
    (hhead : ∀ (b l : Nat), t'.buckets[b]? = some (some l) → ∃ n : Node K V, t.nodes[l]? = some n ∧ slot hash t n.key = b) : WF hash t' := by
  have hback : ∀ (i : Nat) (n' : Node K V), t'.nodes[i]? = some n' → ∃ n : Node K V, t.nodes[i]? = some n ∧ n'.key = n.key := by
    intro i n' hn'
    have hi : i < t.nodes.length := hlen ▸ (List.getElem?_eq_some_iff.mp hn').1
    have hn : t.nodes[i]? = some t.nodes[i] := by simp [hi]
    obtain ⟨m, h1, h2⟩ := h.node i _ hn
    rw [hn'] at h1
    cases h1
    exact ⟨_, hn, h2⟩
  refine ⟨h.len ▸ hw.cap, ?_, ?_, ?_⟩
  · intro i n' hn' j hj
    refine ⟨(hnext i n' hn' j hj).1, ?_⟩
    intro m' hm'
    obtain ⟨m, hm, hk⟩ := hback j m' hm'
    rw [slot_keeps h, slot_keeps h, hk]
    exact (hnext i n' hn' j hj).2 m hm
  · intro b l hb
    obtain ⟨n, hn, hs⟩ := hhead b l hb
    obtain ⟨n', hn', hk⟩ := h.node l n hn
    exact ⟨n', hn', by rw [slot_keeps h, hk, hs]⟩
  · intro i is' hp'
    have hi : i < t.nodes.length := by
      cases hp' with
      | cons hn _ => exact hlen ▸ (List.getElem?_eq_some_iff.mp hn).1
    obtain ⟨is, hp, _⟩ := Path.exists hw.desc i hi
    obtain ⟨is'', h1, h2, _⟩ := h.path _ _ hp
    rw [Path.det hp' h1, keysOf_keeps h (fun x hx => hp.mem x (h2.subset hx))]
    exact (hw.nodup i is hp).sublist (keysOf_sublist h2)

theorem step_ok {hash : K → Nat} {t : Tbl K V} (hw : WF hash t) (o : Op K V) : ∃ t', step hash t o = some t' ∧ WF hash t' ∧ Keeps t t' (Gone t o) := by
  cases o with
  | set k v =>
    rcases find_spec hw k with ⟨h1, h2⟩ | ⟨q, l, n, h1, h2, h3, h4, _⟩
    · have hs := slot_lt hw k
      have hb : t.buckets[slot hash t k]? = some t.buckets[slot hash t k] := by simp [hs]
      generalize t.buckets[slot hash t k] = head at hb
      refine ⟨⟨t.nodes ++ [⟨k, v, head⟩], t.buckets.set (slot hash t k) (some t.nodes.length)⟩, by simp only [step, h1, hb], ?_⟩
      have hpath : ∀ (l : Option Nat) (is : List Nat), Path t.nodes l is → Path (t.nodes ++ [⟨k, v, head⟩]) l is := by
        intro l is hp
        refine hp.mono ?_
        intro i n hn
        exact ⟨n, by rw [List.getElem?_append_left (List.getElem?_eq_some_iff.mp hn).1]; exact hn, rfl⟩
      have hkeep : Keeps t ⟨t.nodes ++ [⟨k, v, head⟩], t.buckets.set (slot hash t k) (some t.nodes.length)⟩ (Gone t (.set k v)) := by
        refine ⟨by simp, ?_, ?_, ?_⟩
        · intro i n hn
          exact ⟨n, by rw [List.getElem?_append_left (List.getElem?_eq_some_iff.mp hn).1]; exact hn, rfl⟩
        · intro l is hp
          exact ⟨is, hpath l is hp, List.Sublist.refl _, fun x hx _ => hx⟩
        · rintro i ⟨b, hd, is, g1, g2, g3⟩ _
          by_cases hbs : b = slot hash t k
          · subst hbs
            rw [hb] at g1
            cases g1
            refine ⟨slot hash t k, some t.nodes.length, t.nodes.length :: is, by simp [hs], ?_, List.mem_cons_of_mem _ g3⟩
            exact .cons (n := ⟨k, v, head⟩) (by simp) (hpath _ _ g2)
          · exact ⟨b, hd, is, by simp only []; rw [List.getElem?_set_ne (Ne.symm hbs)]; exact g1, hpath _ _ g2, g3⟩
      refine ⟨?_, hkeep⟩
      obtain ⟨is0, hp0, _⟩ := hw.chain hb
      have hsl0 : ∀ i ∈ is0, ∀ n : Node K V, t.nodes[i]? = some n → slot hash t n.key = slot hash t k := by
        refine Path.slots hw hp0 ?_
        intro i n hi hn
        subst hi
        obtain ⟨m, g1, g2⟩ := hw.head _ _ hb
        rw [hn] at g1
        cases g1
        exact g2
      have hold : ∀ (i : Nat) (n : Node K V), (t.nodes ++ [(⟨k, v, head⟩ : Node K V)])[i]? = some n → t.nodes[i]? = some n ∨ (i = t.nodes.length ∧ n = ⟨k, v, head⟩) := by
        intro i n hn
        by_cases hi : i < t.nodes.length
        · left; rwa [List.getElem?_append_left hi] at hn
        · right
          have : i < (t.nodes ++ [(⟨k, v, head⟩ : Node K V)]).length := (List.getElem?_eq_some_iff.mp hn).1
          have hie : i = t.nodes.length := by simp at this; omega
          subst hie
          simp at hn
          exact ⟨rfl, hn.symm⟩
      refine ⟨by simpa using hw.cap, ?_, ?_, ?_⟩
      · intro i n hn j hj
        simp only [slot_keeps hkeep]
        rcases hold i n hn with h | ⟨rfl, rfl⟩
        · refine ⟨(hw.next i n h j hj).1, ?_⟩
          intro m hm
          rcases hold j m hm with h' | ⟨rfl, rfl⟩
          · exact (hw.next i n h j hj).2 m h'
          · have := (hw.next i n h _ hj).1
            have := (List.getElem?_eq_some_iff.mp h).1
            omega
        · simp only at hj
          subst hj
          cases hp0 with
          | @cons _ m0 _ hm0 _ =>
            have hlt := (List.getElem?_eq_some_iff.mp hm0).1
            refine ⟨hlt, ?_⟩
            intro m hm
            rcases hold j m hm with h' | ⟨rfl, rfl⟩
            · exact hsl0 j List.mem_cons_self m h'
            · omega
      · intro b l hbl
        simp only [slot_keeps hkeep]
        by_cases hbs : b = slot hash t k
        · subst hbs
          simp only [List.getElem?_set_self hs, Option.some.injEq] at hbl
          subst hbl
          exact ⟨⟨k, v, head⟩, by simp, rfl⟩
        · simp only [] at hbl
          rw [List.getElem?_set_ne (Ne.symm hbs)] at hbl
          obtain ⟨n, g1, g2⟩ := hw.head b l hbl
          exact ⟨n, by rw [List.getElem?_append_left (List.getElem?_eq_some_iff.mp g1).1]; exact g1, g2⟩
      · intro i is' hp'
        by_cases hi : i < t.nodes.length
        · obtain ⟨is, hp, _⟩ := Path.exists hw.desc i hi
          rw [Path.det hp' (hpath _ _ hp), keysOf_keeps hkeep hp.mem]
          exact hw.nodup i is hp
        · cases hp' with
          | @cons _ n is hn hq =>
            rcases hold i n hn with h | ⟨rfl, rfl⟩
            · exact absurd (List.getElem?_eq_some_iff.mp h).1 hi
            · have he := Path.det hq (hpath _ _ hp0)
              subst he
              have hk := keysOf_keeps hkeep hp0.mem
              simp only [keysOf, List.filterMap_cons, hn, Option.map_some] at hk ⊢
              rw [hk, List.nodup_cons]
              refine ⟨?_, hw.pathNodup hp0⟩
              intro hm
              obtain ⟨j, m, g1, g2, g3⟩ := of_mem_keysOf (nodes := t.nodes) hm
              exact h2 j m ⟨_, _, is, hb, hp0, g1⟩ g2 g3
    · have hlt := (List.getElem?_eq_some_iff.mp h3).1
      refine ⟨{ t with nodes := t.nodes.set l { n with val := v } }, by simp only [step, h1, h3], ?_⟩
      have hfw : ∀ (i : Nat) (m : Node K V), t.nodes[i]? = some m → ∃ m' : Node K V, (t.nodes.set l { n with val := v })[i]? = some m' ∧ m'.next = m.next ∧ m'.key = m.key := by
        intro i m hm
        by_cases hi : i = l
        · subst hi
          rw [h3] at hm
          cases hm
          exact ⟨_, List.getElem?_set_self hlt, rfl, rfl⟩
        · exact ⟨m, by rw [List.getElem?_set_ne (Ne.symm hi)]; exact hm, rfl, rfl⟩
      have hpath : ∀ (q : Option Nat) (is : List Nat), Path t.nodes q is → Path (t.nodes.set l { n with val := v }) q is :=
        fun q is hp => hp.mono (fun i m hm => let ⟨m', a, b, _⟩ := hfw i m hm; ⟨m', a, b⟩)
      have hkeep : Keeps t { t with nodes := t.nodes.set l { n with val := v } } (Gone t (.set k v)) := by
        refine ⟨rfl, fun i m hm => let ⟨m', a, _, b⟩ := hfw i m hm; ⟨m', a, b⟩, fun q is hp => ⟨is, hpath q is hp, List.Sublist.refl _, fun x hx _ => hx⟩, ?_⟩
        rintro i ⟨b, hd, is, g1, g2, g3⟩ _
        exact ⟨b, hd, is, g1, hpath _ _ g2, g3⟩
      refine ⟨hw.of_keeps hkeep (by simp) ?_ hw.head, hkeep⟩
      intro i n' hn' j hj
      by_cases hi : i = l
      · subst hi
        simp only [List.getElem?_set_self hlt, Option.some.injEq] at hn'
        subst hn'
        exact hw.next i n h3 j hj
      · simp only [] at hn'
        rw [List.getElem?_set_ne (Ne.symm hi)] at hn'
        exact hw.next i n' hn' j hj
  | remove k =>
    rcases find_spec hw k with ⟨h1, h2⟩ | ⟨q, r, nr, h1, h2, h3, h4, h5⟩
    · exact ⟨t, by simp only [step, h1], hw, Keeps.refl _ _⟩
    · have hgone : ∀ x, ¬ Gone t (.remove k) x → x ≠ r := by
        rintro x hx rfl
        exact hx ⟨k, nr, rfl, h3, h4⟩
      rcases h5 with ⟨rfl, hb⟩ | ⟨p, np, rfl, hp, hpr⟩
      · have hs := slot_lt hw k
        refine ⟨{ t with buckets := t.buckets.set (slot hash t k) nr.next }, by simp only [step, h1, h3], ?_⟩
        have hkeep : Keeps t { t with buckets := t.buckets.set (slot hash t k) nr.next } (Gone t (.remove k)) := by
          refine ⟨by simp, fun i n hn => ⟨n, hn, rfl⟩, fun l is hp => ⟨is, hp, List.Sublist.refl _, fun x hx _ => hx⟩, ?_⟩
          rintro i ⟨b, hd, is, g1, g2, g3⟩ hg
          by_cases hbs : b = slot hash t k
          · subst hbs
            rw [hb] at g1
            cases g1
            cases g2 with
            | cons hn hq =>
              rw [h3] at hn
              cases hn
              rcases List.mem_cons.mp g3 with g4 | g4
              · exact absurd g4 (hgone i hg)
              · exact ⟨slot hash t k, nr.next, _, by simp [hs], hq, g4⟩
          · exact ⟨b, hd, is, by simp only []; rw [List.getElem?_set_ne (Ne.symm hbs)]; exact g1, g2, g3⟩
        refine ⟨hw.of_keeps hkeep rfl hw.next ?_, hkeep⟩
        intro b l hbl
        by_cases hbs : b = slot hash t k
        · subst hbs
          simp only [List.getElem?_set_self hs, Option.some.injEq] at hbl
          have hnx := hw.next r nr h3 l hbl
          have hlt : l < t.nodes.length := Nat.lt_trans hnx.1 (List.getElem?_eq_some_iff.mp h3).1
          have hn : t.nodes[l]? = some t.nodes[l] := by simp [hlt]
          exact ⟨_, hn, by rw [hnx.2 _ hn, h4]⟩
        · simp only [] at hbl
          rw [List.getElem?_set_ne (Ne.symm hbs)] at hbl
          exact hw.head b l hbl
      · have hrp : r < p := (hw.next p np hp r hpr).1
        have hlt := (List.getElem?_eq_some_iff.mp hp).1
        refine ⟨{ t with nodes := t.nodes.set p { np with next := nr.next } }, by simp only [step, h1, h3, hp], ?_⟩
        have hkeep : Keeps t { t with nodes := t.nodes.set p { np with next := nr.next } } (Gone t (.remove k)) := by
          refine ⟨rfl, ?_, ?_, ?_⟩
          · intro i n hn
            by_cases hi : i = p
            · subst hi
              rw [hp] at hn
              cases hn
              exact ⟨_, List.getElem?_set_self hlt, rfl⟩
            · exact ⟨n, by simp only []; rw [List.getElem?_set_ne (Ne.symm hi)]; exact hn, rfl⟩
          · intro l is hl
            obtain ⟨is', g1, g2, g3⟩ := Path.unlink hp h3 hpr (by omega) hl
            exact ⟨is', g1, g2, fun x hx hg => g3 x hx (hgone x hg)⟩
          · rintro i ⟨b, hd, is, g1, g2, g3⟩ hg
            obtain ⟨is', g4, _, g6⟩ := Path.unlink hp h3 hpr (by omega) g2
            exact ⟨b, hd, is', g1, g4, g6 i g3 (hgone i hg)⟩
        refine ⟨hw.of_keeps hkeep (by simp) ?_ hw.head, hkeep⟩
        intro i n' hn' j hj
        by_cases hi : i = p
        · subst hi
          simp only [List.getElem?_set_self hlt, Option.some.injEq] at hn'
          subst hn'
          simp only at hj
          have hx := hw.next r nr h3 j hj
          refine ⟨by omega, ?_⟩
          intro m hm
          simp only []
          rw [hx.2 m hm, (hw.next i np hp r hpr).2 nr h3]
        · simp only [] at hn'
          rw [List.getElem?_set_ne (Ne.symm hi)] at hn'
          exact hw.next i n' hn' j hj

/-- A sequence of changes. -/
def GoneIn (t : Tbl K V) (os : List (Op K V)) (x : Nat) : Prop := ∃ (k : K) (n : Node K V), Op.remove k ∈ os ∧ t.nodes[x]? = some n ∧ n.key = k

theorem run_ok {hash : K → Nat} (os : List (Op K V)) : ∀ {t : Tbl K V}, WF hash t → ∃ t', run hash t os = some t' ∧ WF hash t' ∧ Keeps t t' (GoneIn t os) := by
  induction os with
  | nil => intro t hw; exact ⟨t, rfl, hw, Keeps.refl _ _⟩
  | cons o os ih =>
    intro t hw
    obtain ⟨t1, h1, hw1, k1⟩ := step_ok hw o
    obtain ⟨t2, h2, hw2, k2⟩ := ih hw1
    refine ⟨t2, by simp only [run, h1, h2], hw2, ?_⟩
    have hg1 : ∀ x, ¬ GoneIn t (o :: os) x → ¬ Gone t o x := by
      rintro x hx ⟨k, n, rfl, g1, g2⟩
      exact hx ⟨k, n, List.mem_cons_self, g1, g2⟩
    have hg2 : ∀ x, (∃ n : Node K V, t.nodes[x]? = some n) → ¬ GoneIn t (o :: os) x → ¬ GoneIn t1 os x := by
      rintro x ⟨n, hn⟩ hx ⟨k, m, g0, g1, g2⟩
      obtain ⟨n', h3, h4⟩ := k1.node x n hn
      rw [g1] at h3
      cases h3
      exact hx ⟨k, n, List.mem_cons_of_mem _ g0, hn, by rw [← h4, g2]⟩
    refine ⟨by rw [k2.len, k1.len], ?_, ?_, ?_⟩
    · intro i n hn
      obtain ⟨n1, g1, g2⟩ := k1.node i n hn
      obtain ⟨n2, g3, g4⟩ := k2.node i n1 g1
      exact ⟨n2, g3, by rw [g4, g2]⟩
    · intro l is hp
      obtain ⟨is1, g1, g2, g3⟩ := k1.path l is hp
      obtain ⟨is2, g4, g5, g6⟩ := k2.path l is1 g1
      exact ⟨is2, g4, g5.trans g2, fun x hx hg => g6 x (g3 x hx (hg1 x hg)) (hg2 x (hp.mem x hx) hg)⟩
    · intro i hl hg
      obtain ⟨b, hd, is, g1, g2, g3⟩ := id hl
      exact k2.live i (k1.live i hl (hg1 i hg)) (hg2 i (g2.mem i g3) hg)

omit [DecidableEq K] in
theorem make_wf (hash : K → Nat) (cap : Nat) (h : 0 < cap) : WF hash (make cap : Tbl K V) := by
  refine ⟨by simpa [make] using h, ?_, ?_, ?_⟩
  · intro i n hn; simp [make] at hn
  · intro b l hb
    simp only [make, List.getElem?_replicate] at hb
    split at hb <;> simp at hb
  · intro i is hp
    cases hp with
    | cons hn _ => simp [make] at hn

/-- Every call is made with an entry of the table, or with an entry removed by an earlier call. -/
def Fresh (hash : K → Nat) (proc : Proc K V A) (log : List (Visit K V A)) : Prop :=
  ∀ (pre post : List (Visit K V A)) (w : Visit K V A), log = pre ++ w :: post → ref hash w.tab w.key = some (some w.val) ∨ Removed proc pre w.key

theorem Removed.mono {proc : Proc K V A} {a b : List (Visit K V A)} {k : K} (h : Removed proc a k) : Removed proc (a ++ b) k :=
  let ⟨w, hw, ho⟩ := h; ⟨w, List.mem_append_left _ hw, ho⟩

theorem Fresh.snoc {hash : K → Nat} {proc : Proc K V A} {log : List (Visit K V A)} (h : Fresh hash proc log) {w : Visit K V A}
    (hw : ref hash w.tab w.key = some (some w.val) ∨ Removed proc log w.key) : Fresh hash proc (log ++ [w]) := by
  intro pre post u hu
  rcases List.eq_nil_or_concat post with rfl | ⟨post', x, rfl⟩
  · have := List.append_inj' hu rfl
    obtain ⟨rfl, h2⟩ := this
    cases h2
    exact hw
  · rw [List.concat_eq_append, ← List.cons_append, ← List.append_assoc] at hu
    have := List.append_inj' hu rfl
    exact h pre post' u this.1

theorem Runs.append {hash : K → Nat} {proc : Proc K V A} {t t1 t2 : Tbl K V} {a a1 a2 : A} {l l' : List (Visit K V A)} (h : Runs hash proc t a l t1 a1) (h' : Runs hash proc t1 a1 l' t2 a2) :
    Runs hash proc t a (l ++ l') t2 a2 := by
  induction h with
  | nil => exact h'
  | cons h1 h2 _ ih => exact .cons h1 h2 (ih h')

/-- What a part of a fold does, from `s` to `s'`, with the calls `ext`. -/
structure Part (hash : K → Nat) (proc : Proc K V A) (s s' : St K V A) (ext : List (Visit K V A)) : Prop where
  log : s'.log = s.log ++ ext
  nodup : (s'.log.map (·.key)).Nodup
  fresh : Fresh hash proc s'.log
  cap : s'.tab.buckets.length = s.tab.buckets.length
  wf : WF hash s'.tab
  node : ∀ (i : Nat) (n : Node K V), s.tab.nodes[i]? = some n → ∃ n' : Node K V, s'.tab.nodes[i]? = some n' ∧ n'.key = n.key
  live : ∀ (i : Nat) (n : Node K V), s.tab.nodes[i]? = some n → Live s.tab i → ¬ Removed proc ext n.key → Live s'.tab i

theorem walk_spec (hash : K → Nat) (proc : Proc K V A) (b : Nat) : ∀ (f : Nat) (cur : Option Nat) (s : St K V A) (is : List Nat), WF hash s.tab → Path s.tab.nodes cur is → is.length ≤ f →
    (∀ i ∈ is, ∀ n : Node K V, s.tab.nodes[i]? = some n → slot hash s.tab n.key = b) → (∀ w ∈ s.log, w.key ∉ keysOf s.tab.nodes is) →
    (∀ i ∈ is, ∀ n : Node K V, s.tab.nodes[i]? = some n → Live s.tab i ∨ Removed proc s.log n.key) → (s.log.map (·.key)).Nodup → Fresh hash proc s.log →
    ∃ (s' : St K V A) (ext : List (Visit K V A)), Part hash proc s s' ext ∧ (∀ w ∈ ext, slot hash s.tab w.key = b) ∧
      ((walk hash proc f cur s = .done s' ∧ Runs hash proc s.tab s.acc ext s'.tab s'.acc ∧
          (∀ i ∈ is, ∀ n : Node K V, s.tab.nodes[i]? = some n → ¬ Removed proc ext n.key → ∃ w ∈ ext, w.key = n.key)) ∨
       (walk hash proc f cur s = .left s' ∧ Leaves hash proc s.tab s.acc ext s'.tab)) := by
  intro f
  induction f with
  | zero =>
    intro cur s is hw hp hf hsl hdis hst hnd hfr
    cases hp with
    | nil =>
      refine ⟨s, [], ⟨by simp, hnd, hfr, rfl, hw, fun i n hn => ⟨n, hn, rfl⟩, fun i n _ h _ => h⟩, by simp, Or.inl ⟨by rfl, .nil, by simp⟩⟩
    | cons => simp at hf
  | succ f ih =>
    intro cur s is hw hp hf hsl hdis hst hnd hfr
    cases hp with
    | nil =>
      refine ⟨s, [], ⟨by simp, hnd, hfr, rfl, hw, fun i n hn => ⟨n, hn, rfl⟩, fun i n _ h _ => h⟩, by simp, Or.inl ⟨by rfl, .nil, by simp⟩⟩
    | @cons l n is hn hp =>
      obtain ⟨t', hrun, hw', hk⟩ := run_ok (hash := hash) (proc n.key n.val s.acc s.tab).1 hw
      have hkn : keysOf s.tab.nodes (l :: is) = n.key :: keysOf s.tab.nodes is := by simp [keysOf, hn]
      have hnew : ∀ w ∈ s.log, w.key ≠ n.key := by
        intro w hwl he
        exact hdis w hwl (by rw [hkn, he]; exact List.mem_cons_self)
      have hnd' : ((s.log ++ [(⟨n.key, n.val, s.acc, s.tab⟩ : Visit K V A)]).map (·.key)).Nodup := by
        rw [List.map_append, List.nodup_append]
        refine ⟨hnd, by simp, ?_⟩
        intro x hx y hy
        simp only [List.map_cons, List.map_nil, List.mem_singleton] at hy
        obtain ⟨w, hwl, rfl⟩ := List.mem_map.mp hx
        rw [hy]
        exact hnew w hwl
      have hfr' : Fresh hash proc (s.log ++ [(⟨n.key, n.val, s.acc, s.tab⟩ : Visit K V A)]) := by
        refine hfr.snoc ?_
        rcases hst l List.mem_cons_self n hn with h | h
        · exact Or.inl (ref_live hw h hn)
        · exact Or.inr h
      have hgone : ∀ (i : Nat) (m : Node K V), s.tab.nodes[i]? = some m → GoneIn s.tab (proc n.key n.val s.acc s.tab).1 i → Op.remove m.key ∈ (proc n.key n.val s.acc s.tab).1 := by
        rintro i m hm ⟨k, m', g1, g2, g3⟩
        rw [hm] at g2
        cases g2
        rw [g3]
        exact g1
      have hrem : ∀ k, Op.remove k ∈ (proc n.key n.val s.acc s.tab).1 → Removed proc (s.log ++ [(⟨n.key, n.val, s.acc, s.tab⟩ : Visit K V A)]) k :=
        fun k hk => ⟨_, List.mem_append_right _ (List.mem_singleton.mpr rfl), hk⟩
      cases hres : (proc n.key n.val s.acc s.tab).2 with
      | none =>
        refine ⟨⟨t', s.acc, s.log ++ [⟨n.key, n.val, s.acc, s.tab⟩]⟩, [⟨n.key, n.val, s.acc, s.tab⟩], ⟨rfl, hnd', hfr', hk.len, hw', hk.node, ?_⟩, ?_, Or.inr ⟨?_, [], n.key, n.val, s.tab, s.acc, rfl, .nil, hres, hrun⟩⟩
        · intro i m hm hl hr
          refine hk.live i hl (fun hg => hr ⟨_, List.mem_singleton.mpr rfl, hgone i m hm hg⟩)
        · intro w hwl
          rw [List.mem_singleton.mp hwl]
          exact hsl l List.mem_cons_self n hn
        · simp only [walk, hn, hrun, hres]
      | some a =>
        obtain ⟨n', hn', hkey'⟩ := hk.node l n hn
        -- the rest of the chain after the call
        obtain ⟨js, hj, hsub, hmem⟩ := hk.path (some l) (l :: is) (.cons hn hp)
        cases hj with
        | @cons _ n'' js hn'' hj =>
          rw [hn'] at hn''
          cases hn''
          have hsub' : js.Sublist is := (List.cons_sublist_cons).mp hsub
          have hback : ∀ i ∈ js, ∀ m' : Node K V, t'.nodes[i]? = some m' → ∃ m : Node K V, s.tab.nodes[i]? = some m ∧ m'.key = m.key ∧ i ∈ is := by
            intro i hi m' hm'
            obtain ⟨m, hm⟩ := hp.mem i (hsub'.subset hi)
            obtain ⟨m'', g1, g2⟩ := hk.node i m hm
            rw [hm'] at g1
            cases g1
            exact ⟨m, hm, g2, hsub'.subset hi⟩
          have hkeys : keysOf t'.nodes js = keysOf s.tab.nodes js := keysOf_keeps hk (fun x hx => hp.mem x (hsub'.subset hx))
          have hnotin : n.key ∉ keysOf s.tab.nodes is := by
            have := hw.pathNodup (.cons hn hp)
            rw [hkn, List.nodup_cons] at this
            exact this.1
          obtain ⟨s', ext, hpart, hslot, hcase⟩ := ih n'.next ⟨t', a, s.log ++ [⟨n.key, n.val, s.acc, s.tab⟩]⟩ js hw' hj
            (by have := hsub'.length_le; simp at hf; omega)
            (by
              intro i hi m' hm'
              obtain ⟨m, g1, g2, g3⟩ := hback i hi m' hm'
              rw [slot_keeps hk, g2]
              exact hsl i (List.mem_cons_of_mem _ g3) m g1)
            (by
              intro w hwl hmk
              rw [hkeys] at hmk
              have hmk' := (keysOf_sublist hsub').subset hmk
              rcases List.mem_append.mp hwl with h | h
              · exact hdis w h (by rw [hkn]; exact List.mem_cons_of_mem _ hmk')
              · rw [List.mem_singleton.mp h] at hmk'
                exact hnotin hmk')
            (by
              intro i hi m' hm'
              obtain ⟨m, g1, g2, g3⟩ := hback i hi m' hm'
              rw [g2]
              rcases hst i (List.mem_cons_of_mem _ g3) m g1 with h | h
              · by_cases hg : GoneIn s.tab (proc n.key n.val s.acc s.tab).1 i
                · exact Or.inr (hrem _ (hgone i m g1 hg))
                · exact Or.inl (hk.live i h hg)
              · exact Or.inr h.mono)
            hnd' hfr'
          refine ⟨s', ⟨n.key, n.val, s.acc, s.tab⟩ :: ext, ⟨by rw [hpart.log]; simp, hpart.nodup, hpart.fresh, by rw [hpart.cap, hk.len], hpart.wf, ?_, ?_⟩, ?_, ?_⟩
          · intro i m hm
            obtain ⟨m1, g1, g2⟩ := hk.node i m hm
            obtain ⟨m2, g3, g4⟩ := hpart.node i m1 g1
            exact ⟨m2, g3, by rw [g4, g2]⟩
          · intro i m hm hl hr
            obtain ⟨m1, g1, g2⟩ := hk.node i m hm
            have hl1 : Live t' i := hk.live i hl (fun hg => hr ⟨_, List.mem_cons_self, hgone i m hm hg⟩)
            refine hpart.live i m1 g1 hl1 ?_
            rintro ⟨w, hwl, ho⟩
            exact hr ⟨w, List.mem_cons_of_mem _ hwl, g2 ▸ ho⟩
          · intro w hwl
            rcases List.mem_cons.mp hwl with rfl | hwl
            · exact hsl l List.mem_cons_self n hn
            · have := hslot w hwl
              rwa [slot_keeps hk] at this
          · rcases hcase with ⟨h1, h2, h3⟩ | ⟨h1, pre, k, v, t1, a1, h2, h3, h4, h5⟩
            · left
              refine ⟨by simp only [walk, hn, hrun, hres, hn', h1], .cons hrun hres h2, ?_⟩
              intro i hi m hm hr
              rcases List.mem_cons.mp hi with rfl | hi'
              · rw [hn] at hm
                cases hm
                exact ⟨_, List.mem_cons_self, rfl⟩
              · have hxj : i ∈ l :: js := hmem i hi (fun hg => hr ⟨_, List.mem_cons_self, hgone i m hm hg⟩)
                rcases List.mem_cons.mp hxj with rfl | hxj'
                · rw [hn] at hm
                  cases hm
                  exact ⟨_, List.mem_cons_self, rfl⟩
                · obtain ⟨m1, g1, g2⟩ := hk.node i m hm
                  obtain ⟨w, hwl, hwk⟩ := h3 i hxj' m1 g1 (by
                    rintro ⟨w, hwl, ho⟩
                    exact hr ⟨w, List.mem_cons_of_mem _ hwl, g2 ▸ ho⟩)
                  exact ⟨w, List.mem_cons_of_mem _ hwl, by rw [hwk, g2]⟩
            · right
              refine ⟨by simp only [walk, hn, hrun, hres, hn', h1], ⟨n.key, n.val, s.acc, s.tab⟩ :: pre, k, v, t1, a1, by rw [h2]; rfl, .cons hrun hres h3, h4, h5⟩

theorem buckets_spec (hash : K → Nat) (proc : Proc K V A) : ∀ (bs : List Nat) (s : St K V A), WF hash s.tab → bs.Nodup → (∀ b ∈ bs, b < s.tab.buckets.length) →
    (∀ w ∈ s.log, slot hash s.tab w.key ∉ bs) → (s.log.map (·.key)).Nodup → Fresh hash proc s.log →
    ∃ (s' : St K V A) (ext : List (Visit K V A)), Part hash proc s s' ext ∧
      ((buckets hash proc bs s = .done s' ∧ Runs hash proc s.tab s.acc ext s'.tab s'.acc ∧
          (∀ (i : Nat) (n : Node K V), Live s.tab i → s.tab.nodes[i]? = some n → slot hash s.tab n.key ∈ bs → ¬ Removed proc ext n.key → ∃ w ∈ ext, w.key = n.key)) ∨
       (buckets hash proc bs s = .left s' ∧ Leaves hash proc s.tab s.acc ext s'.tab)) := by
  intro bs
  induction bs with
  | nil =>
    intro s hw _ _ _ hnd hfr
    exact ⟨s, [], ⟨by simp, hnd, hfr, rfl, hw, fun i n hn => ⟨n, hn, rfl⟩, fun i n _ h _ => h⟩, Or.inl ⟨rfl, .nil, by simp⟩⟩
  | cons b bs ih =>
    intro s hw hbn hlt hlog hnd hfr
    have hblt := hlt b List.mem_cons_self
    have hb : s.tab.buckets[b]? = some s.tab.buckets[b] := by simp [hblt]
    generalize s.tab.buckets[b] = head at hb
    obtain ⟨is, hp, hlen⟩ := hw.chain hb
    have hsl : ∀ i ∈ is, ∀ n : Node K V, s.tab.nodes[i]? = some n → slot hash s.tab n.key = b := by
      refine Path.slots hw hp ?_
      intro i n hi hn
      subst hi
      obtain ⟨m, g1, g2⟩ := hw.head _ _ hb
      rw [hn] at g1
      cases g1
      exact g2
    obtain ⟨s1, e1, hp1, hs1, hc1⟩ := walk_spec hash proc b s.tab.nodes.length head s is hw hp hlen hsl
      (by
        intro w hwl hk
        obtain ⟨i, n, g1, g2, g3⟩ := of_mem_keysOf hk
        have := hsl i g1 n g2
        exact hlog w hwl (by rw [← g3, this]; exact List.mem_cons_self))
      (fun i hi n hn => Or.inl ⟨b, head, is, hb, hp, hi⟩) hnd hfr
    have hslot : ∀ k, slot hash s1.tab k = slot hash s.tab k := by intro k; simp [slot, hp1.cap]
    rw [List.nodup_cons] at hbn
    rcases hc1 with ⟨h1, h2, h3⟩ | ⟨h1, h2⟩
    · obtain ⟨s2, e2, hp2, hc2⟩ := ih s1 hp1.wf hbn.2 (by intro x hx; rw [hp1.cap]; exact hlt x (List.mem_cons_of_mem _ hx))
        (by
          intro w hwl
          rw [hslot]
          rw [hp1.log] at hwl
          rcases List.mem_append.mp hwl with h | h
          · exact fun hc => hlog w h (List.mem_cons_of_mem _ hc)
          · rw [hs1 w h]; exact hbn.1) hp1.nodup hp1.fresh
      have hpart : Part hash proc s s2 (e1 ++ e2) := by
        refine ⟨by rw [hp2.log, hp1.log, List.append_assoc], hp2.nodup, hp2.fresh, by rw [hp2.cap, hp1.cap], hp2.wf, ?_, ?_⟩
        · intro i m hm
          obtain ⟨m1, g1, g2⟩ := hp1.node i m hm
          obtain ⟨m2, g3, g4⟩ := hp2.node i m1 g1
          exact ⟨m2, g3, by rw [g4, g2]⟩
        · intro i m hm hl hr
          obtain ⟨m1, g1, g2⟩ := hp1.node i m hm
          refine hp2.live i m1 g1 (hp1.live i m hm hl (fun h => hr h.mono)) ?_
          rintro ⟨w, hwl, ho⟩
          exact hr ⟨w, List.mem_append_right _ hwl, g2 ▸ ho⟩
      refine ⟨s2, e1 ++ e2, hpart, ?_⟩
      rcases hc2 with ⟨k1, k2, k3⟩ | ⟨k1, pre, k, v, t1, a1, k2, k3, k4, k5⟩
      · left
        refine ⟨by simp only [buckets, hb, h1, k1], h2.append k2, ?_⟩
        intro i n hl hn hm hr
        rcases List.mem_cons.mp hm with hm | hm
        · obtain ⟨hd, js, g1, g2, g3, _⟩ := Live.home hw hl hn
          rw [hm, hb] at g1
          cases g1
          rw [Path.det g2 hp] at g3
          obtain ⟨w, hwl, hwk⟩ := h3 i g3 n hn (fun h => hr h.mono)
          exact ⟨w, List.mem_append_left _ hwl, hwk⟩
        · obtain ⟨m1, g1, g2⟩ := hp1.node i n hn
          obtain ⟨w, hwl, hwk⟩ := k3 i m1 (hp1.live i n hn hl (fun h => hr h.mono)) g1 (by rw [hslot, g2]; exact hm) (by
            rintro ⟨w, hwl, ho⟩
            exact hr ⟨w, List.mem_append_right _ hwl, g2 ▸ ho⟩)
          exact ⟨w, List.mem_append_right _ hwl, by rw [hwk, g2]⟩
      · right
        exact ⟨by simp only [buckets, hb, h1, k1], e1 ++ pre, k, v, t1, a1, by rw [k2, List.append_assoc], h2.append k3, k4, k5⟩
    · exact ⟨s1, e1, hp1, Or.inr ⟨by simp only [buckets, hb, h1], h2⟩⟩

theorem fold_spec (hash : K → Nat) (proc : Proc K V A) (init : A) (t : Tbl K V) (hw : WF hash t) :
    ∃ (s' : St K V A), (s'.log.map (·.key)).Nodup ∧ Fresh hash proc s'.log ∧
      ((fold hash proc init t = .done s' ∧ Runs hash proc t init s'.log s'.tab s'.acc ∧
          (∀ k v, ref hash t k = some (some v) → ¬ Removed proc s'.log k → ∃ w ∈ s'.log, w.key = k)) ∨
       (fold hash proc init t = .left s' ∧ Leaves hash proc t init s'.log s'.tab)) := by
  obtain ⟨s', ext, hp, hc⟩ := buckets_spec hash proc (List.range t.buckets.length) ⟨t, init, []⟩ hw List.nodup_range (by simp) (by simp) (by simp) (by intro pre post w h; simp at h)
  have hlog : s'.log = ext := by simpa using hp.log
  refine ⟨s', hp.nodup, hp.fresh, ?_⟩
  rw [hlog]
  rcases hc with ⟨h1, h2, h3⟩ | ⟨h1, h2⟩
  · left
    refine ⟨h1, h2, ?_⟩
    intro k v hr hrm
    obtain ⟨i, n, g1, g2, g3, _⟩ := of_ref hw hr
    obtain ⟨w, hwl, hwk⟩ := h3 i n g1 g2 (by simpa using slot_lt hw n.key) (g3 ▸ hrm)
    exact ⟨w, hwl, by rw [hwk, g3]⟩
  · exact Or.inr ⟨h1, h2⟩

end Pscm.Itr
