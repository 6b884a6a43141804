import Verif.HashLemmas3
import Verif.AlistProps
/-!
# Properties C26–C28: hash tables

A history is any list of steps (`HOp`): `hash-set!`, `hash-create-handle!`, `hash-remove!`, `hash-ref`,
`hash-get-handle` and arbitrary allocation by the rest of the program.  The intended behaviour is the finite map
`mapAfter`.  The key class (`qKey`, `vKey`, or the denoted tree) says which keys are the same key.
-/
namespace Pscm
open Spec

namespace Spec

/-- Reading the table (by `ref` and by `get-handle`) gives what the finite map says; a handle is the pair of a key of
that class and the stored value. -/
def ReadsAs {κ : Type} [DecidableEq κ] (fam : Fam) (K : Obj → Prop) (cls : Obj → κ) (t : HT) (h : Heap)
    (m : List (κ × Obj)) : Prop :=
  ∀ key, K key →
    hashRef fam t key h = (.ok ((mget m (cls key)).getD Obj.f), h) ∧
    ∃ o h', hashGetHandle fam t key h = (.ok o, h') ∧ Ext h h' ∧
      match mget m (cls key) with
      | none => o = Obj.f
      | some v => ∃ k, cls k = cls key ∧ PairOf h' o k v

/-- The table counts and enumerates the finite map: the entry count is the number of live keys, and `hash-fold` calls
its procedure exactly once for each of them (in some order), whatever the procedure computes, as long as it only
allocates. -/
def CountsAs {κ : Type} [DecidableEq κ] (cls : Obj → κ) (t : HT) (h : Heap) (m : List (κ × Obj)) : Prop :=
  t.size = m.length ∧ (m.map (·.1)).Nodup ∧
  ∃ calls : List (Obj × Obj), (calls.map (fun x => (cls x.1, x.2))).Perm m ∧
    ∀ (proc : Obj → Obj → Obj → M Obj) (init : Obj),
      (∀ k v r h1, Ext h h1 → ∃ r' h2, proc k v r h1 = (.ok r', h2) ∧ Ext h1 h2) →
      hashFold proc init t h = calls.foldlM (fun r x => proc x.1 x.2 r) init h

end Spec

theorem makeHashTable_cases {arg : Option Obj} {t : HT} (h : makeHashTable arg = .ok t) :
    ∃ c, 0 < c ∧ t = ⟨c, 0, List.replicate c []⟩ := by
  cases arg with
  | none => simp only [makeHashTable, Res.ok.injEq] at h; exact ⟨31, by omega, h.symm⟩
  | some o =>
    cases hv : o.v with
    | nil => simp only [makeHashTable, hv, Res.ok.injEq] at h; exact ⟨31, by omega, h.symm⟩
    | num n =>
      simp only [makeHashTable, hv] at h
      by_cases h0 : toU64 n = 0
      · rw [if_pos h0] at h
        rw [if_neg (by omega)] at h
        exact ⟨31, by omega, (Res.ok.inj h).symm⟩
      · rw [if_neg h0] at h
        split at h
        · cases h
        · exact ⟨toU64 n, by omega, (Res.ok.inj h).symm⟩
    | _ => simp [makeHashTable, hv] at h

theorem fold_calls {κ : Type} [DecidableEq κ] {h0 h : Heap} {K : Obj → Prop} {cls : Obj → κ} {H : κ → Nat} {t : HT} {es : List (List Ent)}
    {m : List (κ × Obj)} (inv : HInv h0 h K cls H t es m) {proc : Obj → Obj → Obj → M Obj}
    (hp : ∀ k v r h1, Ext h h1 → ∃ r' h2, proc k v r h1 = (.ok r', h2) ∧ Ext h1 h2) :
    ∀ (l : List Ent) (r : Obj) (h1 : Heap), (∀ x ∈ l, x ∈ es.flatten) → Ext h h1 →
    foldEntries proc (l.map Ent.e) r h1 = (l.map (fun x => (x.key, x.v))).foldlM (fun r x => proc x.1 x.2 r) r h1
  | [], r, h1, _, _ => rfl
  | x :: l, r, h1, hl, he => by
    obtain ⟨i, ok⟩ := inv.entOf (hl x (by simp))
    obtain ⟨r', h2, e, he2⟩ := hp x.key x.v r h1 he
    simp only [List.map_cons, foldEntries, List.foldlM_cons]
    rw [M.bind_ok (getNode_ok (he.get ok.ne))]
    simp only
    rw [M.bind_ok (getNode_ok (he.get ok.nb))]
    simp only
    rw [M.bind_ok e, M.bind_ok e]
    exact fold_calls inv hp l r' h2 (fun y hy => hl y (by simp [hy])) (he.trans he2)

/-- All families at once. -/
theorem history_generic {κ : Type} [DecidableEq κ] {fam : Fam} {h0 : Heap} {K : Obj → Prop} {cls : Obj → κ} {H : κ → Nat}
    (gf : GoodFam fam h0 K cls H) {arg : Option Obj} {t0 : HT} (ht : makeHashTable arg = .ok t0) {fuel : Nat} {ops : List HOp}
    (hops : ∀ op ∈ ops, OpOk h0 K fuel op) :
    ∃ t h, runHOps fam fuel ops t0 h0 = (.ok t, h) ∧ ReadsAs fam K cls t h (mapAfter cls ops) ∧
      CountsAs cls t h (mapAfter cls ops) := by
  obtain ⟨c, hc, rfl⟩ := makeHashTable_cases ht
  obtain ⟨t, h, es, e, inv⟩ := (HInv.new hc h0 K cls H).runOps gf hops
  refine ⟨t, h, e, fun key hk => ⟨inv.hashRef gf hk, inv.hashGetHandle gf hk⟩, inv.size_eq, inv.mnd,
    es.flatten.map (fun x => (x.key, x.v)), ?_, ?_⟩
  · have := inv.entries_perm
    rw [List.map_map]
    exact this
  · intro proc init hp
    have hb : t.buckets.flatten = es.flatten.map Ent.e := by rw [inv.bk, List.map_flatten]
    unfold hashFold
    rw [hb]
    exact fold_calls inv hp es.flatten init h (fun x hx => hx) (Ext.refl h)

/-! ## C26 — finite maps -/

/-- C26/C28 for `hashq-…`, every key: symbols are the same key when they have the same name, other objects when they are
the same object.  For any history from a new table, every read returns the last value stored and not removed. -/
theorem c26_hashq (addr : Nat → Nat) (h0 : Heap) (arg : Option Obj) (t0 : HT) (ht : makeHashTable arg = .ok t0) (fuel : Nat)
    (ops : List HOp) (hops : ∀ op ∈ ops, OpOk h0 (fun _ => True) fuel op) :
    ∃ t h, runHOps (famQ addr) fuel ops t0 h0 = (.ok t, h) ∧
      ReadsAs (famQ addr) (fun _ => True) qKey t h (mapAfter qKey ops) ∧ CountsAs qKey t h (mapAfter qKey ops) :=
  history_generic (famQ_good addr h0) ht hops

/-- C26/C28 for `hashv-…`, every key: integers, characters and booleans by value, everything else (also symbols!) by
object. -/
theorem c26_hashv (addr : Nat → Nat) (h0 : Heap) (arg : Option Obj) (t0 : HT) (ht : makeHashTable arg = .ok t0) (fuel : Nat)
    (ops : List HOp) (hops : ∀ op ∈ ops, OpOk h0 (fun _ => True) fuel op) :
    ∃ t h, runHOps (famV addr) fuel ops t0 h0 = (.ok t, h) ∧
      ReadsAs (famV addr) (fun _ => True) vKey t h (mapAfter vKey ops) ∧ CountsAs vKey t h (mapAfter vKey ops) :=
  history_generic (famV_good addr h0) ht hops

/-- C26/C28 for `hash-…`, partial: keys that are data made of integers, strings, symbols, `()`, `#t`, `#f` and proper
lists of them, existing when the table is created; `cls k` is the datum denoted by the key `k`.  (Characters, floats,
vectors and dotted lists are excluded because the property is false for them: `c27_counterexample`,
`c22_counterexample`.) -/
theorem c26_hash_partial (F : FArith) (addr : Nat → Nat) (h0 : Heap) (arg : Option Obj) (t0 : HT)
    (ht : makeHashTable arg = .ok t0) (ops : List HOp) (ks : List Obj) (cls : Obj → Tree) [DecidableEq Tree]
    (hks : ∀ k ∈ ks, KeyData h0 k (cls k)) :
    ∃ N, ∀ fuel, N ≤ fuel → (∀ op ∈ ops, OpOk h0 (· ∈ ks) fuel op) →
      ∃ t h, runHOps (famE F addr fuel) fuel ops t0 h0 = (.ok t, h) ∧
        ReadsAs (famE F addr fuel) (· ∈ ks) cls t h (mapAfter cls ops) ∧ CountsAs cls t h (mapAfter cls ops) := by
  obtain ⟨N, hN⟩ := famE_good F addr h0 ks cls hks
  exact ⟨N, fun fuel hf hops => history_generic (hN fuel hf) ht hops⟩

/-! A concrete history: symbol `a` (two different records), symbol `b`, integer 7. -/
def exHOps : List HOp :=
  [.set (exSym 1 97) (exNum 1), .set (exSym 2 98) (exNum 2), .create (exSym 3 97) (exNum 3), .remove (exSym 4 98),
   .other (fun h => { h with nextId := h.nextId + 10 }), .set (exNum 7) Obj.nil, .ref (exSym 5 97), .handle (exSym 5 98)]

theorem exHOps_ok (h0 : Heap) (fuel : Nat) : ∀ op ∈ exHOps, OpOk h0 (fun _ => True) fuel op := by
  intro op hop
  refine ⟨fun _ _ => trivial, ?_⟩
  simp only [exHOps, List.mem_cons, List.not_mem_nil, or_false] at hop
  rcases hop with rfl | rfl | rfl | rfl | rfl | rfl | rfl | rfl <;> try trivial
  · intro a ha; cases ha
  · intro h; exact ext_newId h _ (by omega)

example : makeHashTable none = .ok ⟨31, 0, List.replicate 31 []⟩ ∧ (∀ op ∈ exHOps, OpOk exAl (fun _ => True) 5 op) ∧
    mget (mapAfter qKey exHOps) (.name [97]) = some (exNum 3) ∧ mget (mapAfter qKey exHOps) (.name [98]) = none ∧
    (mapAfter qKey exHOps).length = 2 :=
  ⟨rfl, exHOps_ok _ _, by decide +kernel, by decide +kernel, by decide +kernel⟩

example : KeyData exAl (exSym 9 97) (.sym [97]) ∧ KeyData exAl ⟨60, .list 6⟩ (.cons (.sym [98]) (.cons (.int 9) .nil)) ∧
    KeyData exAl Obj.t (.bool true) :=
  ⟨.sym 9 [97] (by decide), .next 60 6 7 _ _ _ _ rfl rfl rfl rfl (.sym 201 [98] (by decide)) (.last 0 7 _ _ rfl rfl (.int _ _)), .t⟩

/-- A machine in which the record number `i` is at address `16 * i`. -/
def exAddr (i : Nat) : Nat := 16 * i

/-- C26 fails for the Scheme equivalence that `hashv` promises: two records of the symbol `a` are `eqv?`, but a value
stored under one with `hashv-set!` is not found under the other. Likewise `hashq` with two records of the integer 1, which are
`eq?`. -/
theorem c26_counterexample :
    (eqvP exampleF' exAl (exSym 1 97) (exSym 2 97) = .ok true ∧
      ∃ t h, runHOps (famV exAddr) 5 [.set (exSym 1 97) (exNum 5)] ⟨31, 0, List.replicate 31 []⟩ exAl = (.ok t, h) ∧
        hashRef (famV exAddr) t (exSym 2 97) h = (.ok Obj.f, h)) ∧
    (eqP exampleF' exAl ⟨80, .num 1⟩ ⟨81, .num 1⟩ = .ok true ∧
      ∃ t h, runHOps (famQ exAddr) 5 [.set ⟨80, .num 1⟩ (exNum 5)] ⟨31, 0, List.replicate 31 []⟩ exAl = (.ok t, h) ∧
        hashRef (famQ exAddr) t ⟨81, .num 1⟩ h = (.ok Obj.f, h)) := by
  refine ⟨⟨by decide +kernel, ?_⟩, ⟨by decide +kernel, ?_⟩⟩
  · obtain ⟨t, h, e, hr, -⟩ := c26_hashv exAddr exAl none _ rfl 5 [.set (exSym 1 97) (exNum 5)]
      (by intro op hop; simp at hop; subst hop; exact ⟨fun _ _ => trivial, trivial⟩)
    exact ⟨t, h, e, (hr (exSym 2 97) trivial).1⟩
  · obtain ⟨t, h, e, hr, -⟩ := c26_hashq exAddr exAl none _ rfl 5 [.set ⟨80, .num 1⟩ (exNum 5)]
      (by intro op hop; simp at hop; subst hop; exact ⟨fun _ _ => trivial, trivial⟩)
    exact ⟨t, h, e, (hr ⟨81, .num 1⟩ trivial).1⟩

/-- C26 fails when a handle is used to store a list (`set-cdr!` on the result of `hash-get-handle`): afterwards `hash-ref`
returns the first element of the list.  (Here the list `(b 9)` at node 6.) -/
theorem c26_handle_counterexample :
    let prog : M Obj := do
      let (_, t) ← hashSet (famQ exAddr) ⟨31, 0, List.replicate 31 []⟩ (exSym 1 97) (exNum 5)
      let o ← hashGetHandle (famQ exAddr) t (exSym 1 97)
      let _ ← setCdr o ⟨60, .list 6⟩
      hashRef (famQ exAddr) t (exSym 1 97)
    (prog exAl).1 = .ok (exSym 201 98) := by decide +kernel

/-! ## C27 — equal keys select the same bucket -/

/-- C27 for `hashq-…`: all objects. -/
theorem c27_hashq (addr : Nat → Nat) (a b : Obj) (h : cmpEq a b = true) : hashEq addr a = hashEq addr b := by
  rcases a with ⟨i, va⟩
  rcases b with ⟨j, vb⟩
  cases va <;> cases vb <;> simp_all [cmpEq, hashEq]

example : cmpEq (exSym 1 97) (exSym 2 97) = true ∧ (exSym 1 97) ≠ (exSym 2 97) := by decide

/-- C27 for `hashv-…`: all objects. -/
theorem c27_hashv (addr : Nat → Nat) (a b : Obj) (h : cmpEqv a b = true) : hashEqv addr a = hashEqv addr b := by
  rcases a with ⟨i, va⟩
  rcases b with ⟨j, vb⟩
  unfold cmpEqv at h
  split at h
  · rename_i e; rw [e]
  · cases va <;> cases vb <;> simp_all [Val.ty, hashEqv]

example : cmpEqv ⟨1, .chr 65⟩ ⟨2, .chr 65⟩ = true ∧ cmpEqv ⟨1, .num 65⟩ ⟨2, .num 65⟩ = true := by decide

/-- C27 for `hash-…`, partial: keys made of integers, strings, symbols, `()`, `#t`, `#f` and proper lists of them. -/
theorem c27_hash_partial (F : FArith) (addr : Nat → Nat) (h : Heap) (a b : Obj) (t u : Tree) (ha : KeyData h a t)
    (hb : KeyData h b u) :
    ∃ N, ∀ fuel, N ≤ fuel → (legacyEq F h fuel a b = .ok true ↔ t = u) ∧
      (legacyEq F h fuel a b = .ok true → ∃ x, hashEqual addr h fuel a = .ok x ∧ hashEqual addr h fuel b = .ok x) := by
  obtain ⟨N, r, hr, hN⟩ := (legacy_settles F (h := h) (sizeOf t) t (Nat.le_refl _)).1 a b u ha.denotes hb.denotes
  obtain ⟨N1, h1⟩ := (hash_settles addr ha).1
  obtain ⟨N2, h2⟩ := (hash_settles addr hb).1
  have key : ∀ fuel, N + N1 + N2 ≤ fuel → (legacyEq F h fuel a b = .ok true ↔ t = u) := by
    intro fuel hf
    have e := hN fuel (by omega)
    simp only at e
    rw [e, ← hr]; simp
  refine ⟨N + N1 + N2, fun fuel hf => ⟨key fuel hf, fun e => ?_⟩⟩
  have : t = u := (key fuel hf).1 e
  subst this
  exact ⟨_, h1 fuel (by omega), h2 fuel (by omega)⟩

example : KeyData exAl (exSym 9 97) (.sym [97]) ∧ KeyData exAl (exSym 10 97) (.sym [97]) :=
  ⟨.sym 9 [97] (by decide), .sym 10 [97] (by decide)⟩

/-- C27 is false for characters in `hash-…` tables (they hash by address): two records of `#\A` compare equal and go to
different buckets, so that a value stored under one is not found under the other. -/
theorem c27_counterexample :
    legacyEq exampleF' exAl 5 ⟨80, .chr 65⟩ ⟨81, .chr 65⟩ = .ok true ∧
    hashEqual exAddr exAl 5 ⟨80, .chr 65⟩ ≠ hashEqual exAddr exAl 5 ⟨81, .chr 65⟩ ∧
    (let prog : M Obj := do
      let (_, t) ← hashSet (famE exampleF' exAddr 5) ⟨31, 0, List.replicate 31 []⟩ ⟨80, .chr 65⟩ (exNum 5)
      hashRef (famE exampleF' exAddr 5) t ⟨81, .chr 65⟩
    (prog exAl).1 = .ok Obj.f) := by decide +kernel

/-! ## C28 — count and enumeration -/

/-- C28 for `hashq-…` and `hashv-…` tables (the part of `c26_hashq`/`c26_hashv` about counting): after any history the
entry count is the number of live keys, and a fold calls its procedure exactly once per live key. -/
theorem c28_counts (addr : Nat → Nat) (h0 : Heap) (arg : Option Obj) (t0 : HT) (ht : makeHashTable arg = .ok t0) (fuel : Nat)
    (ops : List HOp) (hops : ∀ op ∈ ops, OpOk h0 (fun _ => True) fuel op) :
    (∃ t h, runHOps (famQ addr) fuel ops t0 h0 = (.ok t, h) ∧ CountsAs qKey t h (mapAfter qKey ops)) ∧
    (∃ t h, runHOps (famV addr) fuel ops t0 h0 = (.ok t, h) ∧ CountsAs vKey t h (mapAfter vKey ops)) := by
  obtain ⟨t, h, e, -, hc⟩ := c26_hashq addr h0 arg t0 ht fuel ops hops
  obtain ⟨t', h', e', -, hc'⟩ := c26_hashv addr h0 arg t0 ht fuel ops hops
  exact ⟨⟨t, h, e, hc⟩, ⟨t', h', e', hc'⟩⟩

example : (mapAfter qKey exHOps).length = 2 ∧ ((mapAfter qKey exHOps).map (·.1)).Nodup := by decide +kernel

end Pscm
