import Verif.Misc
/-!
# Variables, smobs and read options: properties C81, C82, C83
-/
namespace Pscm.Misc

/-! ## C81 — variables are boxes -/

/-- A call of one of the variable procedures. -/
inductive VarOp
  | make (x : Obj)
  | makeUndef
  | set (o x : Obj)
  | ref (o : Obj)
  | bound (o : Obj)

/-- The result of a call and the state after it. -/
def VarOp.run (s : Vars) : VarOp → Res Obj × Vars
  | .make x => makeVariable s x
  | .makeUndef => makeUndefined s
  | .set o x => variableSet s o x
  | .ref o => (variableRef s o, s)
  | .bound o => (variableBound s o, s)

/-- The state after a history of calls, given newest first. -/
def varAfter (s0 : Nat) : List VarOp → Vars
  | [] => ⟨[], s0⟩
  | op :: h => (op.run (varAfter s0 h)).2

/-- Specification: the number of variables created in a history. -/
def varCreated : List VarOp → Nat
  | [] => 0
  | .make _ :: h => varCreated h + 1
  | .makeUndef :: h => varCreated h + 1
  | _ :: h => varCreated h

/-- Specification: `o` is the variable created as number `k`. -/
def IsVar (o : Obj) (k : Nat) : Prop := o.v = .other .variable k

instance (o : Obj) (k : Nat) : Decidable (IsVar o k) := inferInstanceAs (Decidable (_ = _))

/-- Specification: the value most recently given to variable number `k` (newest call first), if any. -/
def lastValue (k : Nat) : List VarOp → Option Obj
  | [] => none
  | .make x :: h => if varCreated h = k then some x else lastValue k h
  | .makeUndef :: h => if varCreated h = k then none else lastValue k h
  | .set o x :: h => if IsVar o k ∧ k < varCreated h then some x else lastValue k h
  | _ :: h => lastValue k h

theorem varAfter_spec (s0 : Nat) (h : List VarOp) :
    (varAfter s0 h).vals.length = varCreated h ∧
    ∀ k, k < varCreated h → (varAfter s0 h).vals[k]? = some (lastValue k h) := by
  induction h with
  | nil => exact ⟨rfl, fun k hk => absurd hk (Nat.not_lt_zero k)⟩
  | cons op h ih =>
    obtain ⟨hl, hv⟩ := ih
    cases op with
    | make x =>
      refine ⟨by simp [varAfter, VarOp.run, makeVariable, newVar, varCreated, hl], fun k hk => ?_⟩
      simp only [varAfter, VarOp.run, makeVariable, newVar, lastValue]
      simp only [varCreated] at hk
      by_cases he : varCreated h = k
      · rw [if_pos he, List.getElem?_append_right (by omega)]
        simp [hl, he]
      · rw [if_neg he, List.getElem?_append_left (by omega)]
        exact hv k (by omega)
    | makeUndef =>
      refine ⟨by simp [varAfter, VarOp.run, makeUndefined, newVar, varCreated, hl], fun k hk => ?_⟩
      simp only [varAfter, VarOp.run, makeUndefined, newVar, lastValue]
      simp only [varCreated] at hk
      by_cases he : varCreated h = k
      · rw [if_pos he, List.getElem?_append_right (by omega)]
        simp [hl, he]
      · rw [if_neg he, List.getElem?_append_left (by omega)]
        exact hv k (by omega)
    | set o x =>
      have key : ∀ a, o.v = .other .variable a → a < varCreated h →
          variableSet (varAfter s0 h) o x = (.ok Obj.none, { varAfter s0 h with vals := (varAfter s0 h).vals.set a (some x) }) := by
        intro a ha hlt
        simp only [variableSet, varOf, ha, hv a hlt]
      by_cases hex : ∃ a, IsVar o a ∧ a < varCreated h
      · obtain ⟨a, ha, hlt⟩ := hex
        simp only [varAfter, VarOp.run, key a ha hlt, varCreated, lastValue]
        refine ⟨by simp [hl], fun k hk => ?_⟩
        by_cases hk2 : IsVar o k
        · have : a = k := by
            unfold IsVar at ha hk2; rw [ha] at hk2; injection hk2
          subst this
          rw [if_pos ⟨ha, hlt⟩, List.getElem?_set_self (by omega)]
        · have : a ≠ k := fun he => hk2 (he ▸ ha)
          rw [if_neg (fun hh => hk2 hh.1), List.getElem?_set_ne this]
          exact hv k hk
      · have hs : (variableSet (varAfter s0 h) o x).2 = varAfter s0 h := by
          unfold variableSet varOf
          cases ho : o.v with
          | other t a =>
            cases t with
            | «variable» =>
              have : (varAfter s0 h).vals[a]? = none := by
                rw [List.getElem?_eq_none_iff, hl]
                exact Nat.le_of_not_lt fun hh => hex ⟨a, ho, hh⟩
              simp [this]
            | _ => rfl
          | _ => rfl
        simp only [varAfter, VarOp.run, hs, varCreated, lastValue]
        refine ⟨hl, fun k hk => ?_⟩
        rw [if_neg (fun hh => hex ⟨k, hh⟩)]
        exact hv k hk
    | ref o => exact ⟨hl, hv⟩
    | bound o => exact ⟨hl, hv⟩

/-- C81: after any history of the variable procedures, a variable created in it yields the value most recently given to *it*; one that never
received a value is unbound and reading it is an error; setting it succeeds. -/
theorem c81_box (s0 : Nat) (h : List VarOp) (o x : Obj) (k : Nat) (hk : k < varCreated h) (ho : IsVar o k) :
    variableRef (varAfter s0 h) o = (match lastValue k h with | some v => .ok v | none => .err .evalError) ∧
    variableBound (varAfter s0 h) o = .ok (Obj.ofBool (lastValue k h).isSome) ∧
    (variableSet (varAfter s0 h) o x).1 = .ok Obj.none := by
  have hv := (varAfter_spec s0 h).2 k hk
  unfold IsVar at ho
  refine ⟨?_, ?_, ?_⟩
  · simp only [variableRef, varOf, ho, hv]
    cases lastValue k h <;> rfl
  · simp only [variableBound, varOf, ho, hv]; rfl
  · simp only [variableSet, varOf, ho, hv]

/-- C81: a creation returns a variable that differs from all earlier ones, and `variable?` recognises exactly the variables. -/
theorem c81_create (s0 : Nat) (h : List VarOp) (x : Obj) :
    (∃ o, (makeVariable (varAfter s0 h) x).1 = .ok o ∧ IsVar o (varCreated h) ∧ isVariable o = true) ∧
    (∃ o, (makeUndefined (varAfter s0 h)).1 = .ok o ∧ IsVar o (varCreated h) ∧ isVariable o = true) := by
  have hl := (varAfter_spec s0 h).1
  exact ⟨⟨_, rfl, by simp [IsVar, hl], rfl⟩, ⟨_, rfl, by simp [IsVar, hl], rfl⟩⟩

/-- C81: on anything that is not a variable the accessors are errors and change nothing. -/
theorem c81_not_variable (s : Vars) (o x : Obj) (ho : ∀ k, ¬ IsVar o k) :
    isVariable o = false ∧ variableRef s o = .err .evalError ∧ variableBound s o = .err .evalError ∧
    variableSet s o x = (.err .evalError, s) := by
  have hvo : varOf s o = .err .evalError ∧ isVariable o = false := by
    unfold varOf isVariable
    cases hv : o.v with
    | other t a =>
      cases t with
      | «variable» => exact absurd hv (ho a)
      | _ => exact ⟨rfl, rfl⟩
    | _ => exact ⟨rfl, rfl⟩
  refine ⟨hvo.2, ?_, ?_, ?_⟩
  · simp only [variableRef, hvo.1]; rfl
  · simp only [variableBound, hvo.1]; rfl
  · simp only [variableSet, hvo.1]

/-- Two variables, one undefined then set; the other is untouched. -/
example :
    let v0 : Obj := ⟨7, .other .variable 0⟩
    let v1 : Obj := ⟨8, .other .variable 1⟩
    let h : List VarOp := [.set v1 ⟨2, .num 5⟩, .makeUndef, .make ⟨1, .num 3⟩]
    variableRef (varAfter 7 h) v1 = .ok ⟨2, .num 5⟩ ∧ variableRef (varAfter 7 h) v0 = .ok ⟨1, .num 3⟩ ∧
    variableRef (varAfter 7 h.tail) v1 = .err .evalError := by
  decide +kernel

/-! ## C82 — smobs -/

/-- A call of the smob interface. -/
inductive SmobOp
  | newType (name : List UInt8) (size : Nat)
  | make (tag d1 d2 d3 : Int)
  | set (i : Nat) (f : SmobField) (v : Int)

/-- State after a call. -/
def SmobOp.run (s : Smobs) : SmobOp → Smobs
  | .newType n z => (makeSmobType s n z).2
  | .make t a b c => (makeSmob3 s t a b c).2
  | .set i f v => (smobSet s i f v).2

/-- The state after a history of calls, newest first. -/
def smobAfter : List SmobOp → Smobs
  | [] => ⟨[], []⟩
  | op :: h => op.run (smobAfter h)

/-- The tags delivered by the successful type creations of a history, newest first. -/
def tagsCreated : List SmobOp → List Int
  | [] => []
  | .newType n z :: h => (match (makeSmobType (smobAfter h) n z).1 with | .ok t => [t] | _ => []) ++ tagsCreated h
  | _ :: h => tagsCreated h

/-- The tags and constructor data of the smobs successfully made in a history, in the order of their making. -/
def smobsMade : List SmobOp → List Int
  | [] => []
  | .make t a b c :: h => smobsMade h ++ (match (makeSmob3 (smobAfter h) t a b c).1 with | .ok _ => [t] | _ => [])
  | _ :: h => smobsMade h

/-- Specification: what was last stored in field `f` of the smob made as number `i`: by its constructor or by a later set. -/
def lastData (i : Nat) (f : SmobField) : List SmobOp → Option Int
  | [] => none
  | .make t a b c :: h =>
    if t ∈ tagsCreated h ∧ (smobsMade h).length = i then
      some (match f with | .data => a | .data2 => b | .data3 => c | .flags => 0)
    else lastData i f h
  | .set j g v :: h => if j = i ∧ g = f ∧ i < (smobsMade h).length then some v else lastData i f h
  | _ :: h => lastData i f h

def fieldOf (f : SmobField) (o : Smob) : Int :=
  match f with | .data => o.data | .data2 => o.data2 | .data3 => o.data3 | .flags => o.flags

theorem fieldOf_set (f g : SmobField) (o : Smob) (v : Int) :
    fieldOf f (o.put g v) = if g = f then v else fieldOf f o := by
  cases f <;> cases g <;> rfl

theorem tag_set (g : SmobField) (o : Smob) (v : Int) : (o.put g v).tag = o.tag := by
  cases g <;> rfl

theorem checkTag_ok (s : Smobs) (t : Int) :
    (∃ u, checkTag s t = .ok u) ↔ baseTag ≤ t ∧ t < baseTag + s.types.length := by
  unfold checkTag smobNum
  constructor
  · rintro ⟨u, hu⟩
    by_cases h1 : t - baseTag < -(2 ^ 63)
    · rw [if_pos h1] at hu; cases hu
    · rw [if_neg h1] at hu
      change (if t - baseTag < 0 ∨ t - baseTag ≥ ↑s.types.length then _ else _) = _ at hu
      by_cases h2 : t - baseTag < 0 ∨ t - baseTag ≥ s.types.length
      · rw [if_pos h2] at hu; cases hu
      · omega
  · rintro ⟨h1, h2⟩
    refine ⟨(), ?_⟩
    rw [if_neg (by omega)]
    change (if t - baseTag < 0 ∨ t - baseTag ≥ ↑s.types.length then _ else _) = _
    rw [if_neg (by omega)]; rfl

theorem makeSmob3_cases (s : Smobs) (t a b c : Int) :
    (baseTag ≤ t ∧ t < baseTag + s.types.length ∧
      makeSmob3 s t a b c = (.ok s.objs.length, { s with objs := s.objs ++ [⟨t, a, b, c, 0⟩] })) ∨
    (¬ (baseTag ≤ t ∧ t < baseTag + s.types.length) ∧ (∀ i, (makeSmob3 s t a b c).1 ≠ .ok i) ∧ (makeSmob3 s t a b c).2 = s) := by
  have hk := checkTag_ok s t
  unfold makeSmob3
  cases h : checkTag s t with
  | ok u => left; have := hk.1 ⟨u, h⟩; exact ⟨this.1, this.2, rfl⟩
  | _ =>
    right
    refine ⟨fun hh => ?_, fun i => by simp, rfl⟩
    obtain ⟨u, hu⟩ := hk.2 hh
    rw [h] at hu; cases hu

/-- The state against the specification. -/
structure SmobInv (h : List SmobOp) : Prop where
  tags : tagsCreated h = (List.range (smobAfter h).types.length).reverse.map fun i : Nat => baseTag + (i : Int)
  small : (smobAfter h).types.length ≤ 256
  made : (smobAfter h).objs.map (·.tag) = smobsMade h
  data : ∀ i f, i < (smobsMade h).length → ((smobAfter h).objs[i]?).map (fieldOf f) = lastData i f h
  alive : ∀ t ∈ smobsMade h, t ∈ tagsCreated h

theorem mem_tags {h : List SmobOp} (hi : SmobInv h) (t : Int) :
    t ∈ tagsCreated h ↔ baseTag ≤ t ∧ t < baseTag + (smobAfter h).types.length := by
  rw [hi.tags]
  simp only [List.mem_map, List.mem_reverse, List.mem_range]
  constructor
  · rintro ⟨i, hi, rfl⟩; omega
  · rintro ⟨h1, h2⟩; exact ⟨(t - baseTag).toNat, by omega, by omega⟩

theorem made_length {h : List SmobOp} (hi : SmobInv h) : (smobAfter h).objs.length = (smobsMade h).length := by
  rw [← hi.made, List.length_map]

theorem smobInv (h : List SmobOp) : SmobInv h := by
  induction h with
  | nil => exact ⟨rfl, Nat.zero_le _, rfl, fun i f hi => absurd hi (Nat.not_lt_zero i), fun t ht => absurd ht (by simp [smobsMade])⟩
  | cons op h ih =>
    cases op with
    | newType n z =>
      by_cases hc : (smobAfter h).types.length ≥ maxSmob
      · have e1 : makeSmobType (smobAfter h) n z = (.err .evalError, smobAfter h) := by unfold makeSmobType; rw [if_pos hc]
        have e2 : smobAfter (.newType n z :: h) = smobAfter h := by
          change (makeSmobType (smobAfter h) n z).2 = _; rw [e1]
        have e3 : tagsCreated (.newType n z :: h) = tagsCreated h := by simp only [tagsCreated, e1]; rfl
        exact ⟨by rw [e2, e3]; exact ih.tags, by rw [e2]; exact ih.small, by rw [e2]; exact ih.made,
          by rw [e2]; exact ih.data, by rw [e3]; exact ih.alive⟩
      · have e1 : makeSmobType (smobAfter h) n z = (.ok (baseTag + (smobAfter h).types.length),
            { smobAfter h with types := (smobAfter h).types ++ [⟨n, z⟩] }) := by unfold makeSmobType; rw [if_neg hc]
        have e2 : smobAfter (.newType n z :: h) = { smobAfter h with types := (smobAfter h).types ++ [⟨n, z⟩] } := by
          change (makeSmobType (smobAfter h) n z).2 = _; rw [e1]
        have e3 : tagsCreated (.newType n z :: h) = (baseTag + (smobAfter h).types.length) :: tagsCreated h := by
          simp only [tagsCreated, e1]; rfl
        refine ⟨?_, ?_, ?_, ?_, ?_⟩
        · rw [e2, e3]
          simp only [List.length_append, List.length_singleton, List.range_succ, List.reverse_append, List.reverse_cons,
            List.reverse_nil, List.nil_append, List.singleton_append, List.map_cons]
          rw [ih.tags]
        · rw [e2]; simp only [List.length_append, List.length_singleton]; unfold maxSmob at hc; omega
        · rw [e2]; exact ih.made
        · rw [e2]; exact ih.data
        · intro t ht; rw [e3]; exact List.mem_cons_of_mem _ (ih.alive t ht)
    | make t a b c =>
      have e3 : tagsCreated (.make t a b c :: h) = tagsCreated h := rfl
      rcases makeSmob3_cases (smobAfter h) t a b c with ⟨h1, h2, e⟩ | ⟨hn, hno, e⟩
      · have e2 : smobAfter (.make t a b c :: h) = { smobAfter h with objs := (smobAfter h).objs ++ [⟨t, a, b, c, 0⟩] } := by
          change (makeSmob3 (smobAfter h) t a b c).2 = _; rw [e]
        have e4 : smobsMade (.make t a b c :: h) = smobsMade h ++ [t] := by simp only [smobsMade, e]
        have ht : t ∈ tagsCreated h := (mem_tags ih t).2 ⟨h1, h2⟩
        refine ⟨?_, ?_, ?_, ?_, ?_⟩
        · rw [e2, e3]; exact ih.tags
        · rw [e2]; exact ih.small
        · rw [e2, e4]; simp [ih.made]
        · intro i f hi
          rw [e4] at hi
          simp only [List.length_append, List.length_singleton] at hi
          rw [e2]
          simp only [lastData]
          by_cases hl : (smobsMade h).length = i
          · rw [if_pos ⟨ht, hl⟩]
            have hl2 := made_length ih
            rw [List.getElem?_append_right (by omega), hl2, hl, Nat.sub_self]
            cases f <;> rfl
          · rw [if_neg (fun hh => hl hh.2)]
            have hl2 := made_length ih
            rw [List.getElem?_append_left (by omega)]
            exact ih.data i f (by omega)
        · intro u hu
          rw [e4] at hu
          rcases List.mem_append.1 hu with hu | hu
          · exact ih.alive u hu
          · rw [List.mem_singleton.1 hu]; exact ht
      · have e2 : smobAfter (.make t a b c :: h) = smobAfter h := e
        have e4 : smobsMade (.make t a b c :: h) = smobsMade h := by
          simp only [smobsMade]
          cases hm : (makeSmob3 (smobAfter h) t a b c).1 with
          | ok i => exact absurd hm (hno i)
          | _ => simp
        have ht : t ∉ tagsCreated h := fun hh => hn ((mem_tags ih t).1 hh)
        refine ⟨by rw [e2, e3]; exact ih.tags, by rw [e2]; exact ih.small, by rw [e2, e4]; exact ih.made, ?_, by rw [e4]; exact ih.alive⟩
        intro i f hi
        rw [e4] at hi
        rw [e2]
        simp only [lastData]
        rw [if_neg (fun hh => ht hh.1)]
        exact ih.data i f hi
    | set j g v =>
      have e3 : tagsCreated (.set j g v :: h) = tagsCreated h := rfl
      have e4 : smobsMade (.set j g v :: h) = smobsMade h := rfl
      have hl2 := made_length ih
      cases ho : (smobAfter h).objs[j]? with
      | none =>
        have e2 : smobAfter (.set j g v :: h) = smobAfter h := by
          change (smobSet (smobAfter h) j g v).2 = _
          simp only [smobSet, ho]
        have hj := List.getElem?_eq_none_iff.1 ho
        refine ⟨by rw [e2, e3]; exact ih.tags, by rw [e2]; exact ih.small, by rw [e2, e4]; exact ih.made, ?_, by rw [e4]; exact ih.alive⟩
        intro i f hi
        rw [e4] at hi
        rw [e2]; simp only [lastData]
        rw [if_neg (fun hh => by have := hh.1; omega)]
        exact ih.data i f hi
      | some o =>
        obtain ⟨hj, hj2⟩ := List.getElem?_eq_some_iff.1 ho
        have e2 : smobAfter (.set j g v :: h) = { smobAfter h with objs := (smobAfter h).objs.set j (o.put g v) } := by
          change (smobSet (smobAfter h) j g v).2 = _
          simp only [smobSet, ho]
        refine ⟨by rw [e2, e3]; exact ih.tags, by rw [e2]; exact ih.small, ?_, ?_, by rw [e4]; exact ih.alive⟩
        · rw [e2, e4, ← ih.made]
          simp only
          rw [List.map_set]
          have : (o.put g v).tag = o.tag := tag_set g o v
          rw [this]
          apply List.ext_getElem?
          intro i
          by_cases hij : j = i
          · subst hij
            rw [List.getElem?_set_self (by simpa using hj), List.getElem?_map, ho]; rfl
          · rw [List.getElem?_set_ne hij]
        · intro i f hi
          rw [e4] at hi
          rw [e2]; simp only [lastData]
          by_cases hij : j = i
          · subst hij
            rw [List.getElem?_set_self hj]
            simp only [Option.map_some]
            have hf : fieldOf f (o.put g v) = if g = f then v else fieldOf f o := fieldOf_set f g o v
            rw [hf]
            by_cases hg : g = f
            · rw [if_pos hg]; simp [hg, hi]
            · rw [if_neg hg, if_neg (fun hh => hg hh.2.1), ← ih.data j f hi, ho]; rfl
          · rw [List.getElem?_set_ne hij, if_neg (fun hh => hij hh.1)]
            exact ih.data i f hi

/-- C82: in any history the created types have pairwise distinct tags, and there are at most 256 of them. -/
theorem c82_types (h : List SmobOp) : (tagsCreated h).Nodup ∧ (tagsCreated h).length ≤ 256 := by
  have hi := smobInv h
  rw [hi.tags]
  refine ⟨?_, by simpa using hi.small⟩
  refine List.Pairwise.map _ (S := fun a b => a ≠ b) ?_ (List.pairwise_reverse.2 (List.Pairwise.imp (fun h => Ne.symm h) List.nodup_range))
  intro a b hab hh
  exact hab (by omega)

/-- C82: a type creation succeeds as long as fewer than 256 types exist; the next one is an error and changes nothing. -/
theorem c82_limit (h : List SmobOp) (n : List UInt8) (z : Nat) :
    ((tagsCreated h).length < 256 → ∃ t, (makeSmobType (smobAfter h) n z).1 = .ok t ∧ t ∉ tagsCreated h ∧
      descriptor (makeSmobType (smobAfter h) n z).2 t = .ok (some ⟨n, z⟩)) ∧
    ((tagsCreated h).length = 256 → makeSmobType (smobAfter h) n z = (.err .evalError, smobAfter h)) := by
  have hi := smobInv h
  have hlen : (tagsCreated h).length = (smobAfter h).types.length := by rw [hi.tags]; simp
  rw [hlen]
  constructor
  · intro hlt
    have e : makeSmobType (smobAfter h) n z = (.ok (baseTag + (smobAfter h).types.length),
        { smobAfter h with types := (smobAfter h).types ++ [⟨n, z⟩] }) := by
      unfold makeSmobType; rw [if_neg (by unfold maxSmob; omega)]
    rw [e]
    refine ⟨_, rfl, fun hh => ?_, ?_⟩
    · have := (mem_tags hi _).1 hh; omega
    · unfold descriptor smobNum
      rw [if_neg (by omega)]
      change (if _ then _ else _) = _
      rw [if_neg (by simp; omega)]
      have : (baseTag + ((smobAfter h).types.length : Int) - baseTag).toNat = (smobAfter h).types.length := by omega
      simp only [this]
      rw [List.getElem?_append_right (Nat.le_refl _), Nat.sub_self]; rfl
  · intro heq
    unfold makeSmobType; rw [if_pos (by unfold maxSmob; omega)]

/-- C82: a smob can be made of exactly the created types, … -/
theorem c82_make (h : List SmobOp) (t a b c : Int) :
    (t ∈ tagsCreated h → (makeSmob3 (smobAfter h) t a b c).1 = .ok (smobsMade h).length) ∧
    (t ∉ tagsCreated h → (∀ i, (makeSmob3 (smobAfter h) t a b c).1 ≠ .ok i) ∧ (makeSmob3 (smobAfter h) t a b c).2 = smobAfter h) := by
  have hi := smobInv h
  have hm := mem_tags hi t
  rcases makeSmob3_cases (smobAfter h) t a b c with ⟨h1, h2, e⟩ | ⟨hn, hno, e⟩
  · refine ⟨fun _ => by rw [e, made_length hi], fun hh => absurd (hm.2 ⟨h1, h2⟩) hh⟩
  · exact ⟨fun hh => absurd (hm.1 hh) hn, fun _ => ⟨hno, e⟩⟩

/-- C82: … and after any later history each of its fields holds what was last stored there, its type is the one it was made of and no other,
and every field can be read and set. -/
theorem c82_data (h : List SmobOp) (i : Nat) (f : SmobField) (v t : Int) (ht : (smobsMade h)[i]? = some t) :
    (∃ d, lastData i f h = some d ∧ smobGet (smobAfter h) i f = .ok d) ∧
    (∀ u, isSmobType (smobAfter h) i u = .ok (decide (u = t))) ∧ (smobSet (smobAfter h) i f v).1 = .ok () := by
  have hi := smobInv h
  obtain ⟨hl, _⟩ := List.getElem?_eq_some_iff.1 ht
  have hd := hi.data i f hl
  have hl2 := made_length hi
  cases ho : (smobAfter h).objs[i]? with
  | none => have := List.getElem?_eq_none_iff.1 ho; omega
  | some o =>
    rw [ho] at hd
    have htag : o.tag = t := by
      rw [← hi.made, List.getElem?_map, ho] at ht
      simpa using ht
    refine ⟨⟨fieldOf f o, hd.symm, ?_⟩, fun u => ?_, ?_⟩
    · simp only [smobGet, ho]; cases f <;> rfl
    · simp only [isSmobType, ho, htag, eq_comm]
    · simp only [smobSet, ho]

/-- C82: from Scheme, `scm-smob-data` delivers the stored data of a smob whose type declares no size, and is an error otherwise. -/
theorem c82_scheme (h : List SmobOp) (i : Nat) (t : Int) (ht : (smobsMade h)[i]? = some t) (ty : SmobType)
    (hty : descriptor (smobAfter h) t = .ok (some ty)) :
    scmSmobData (smobAfter h) i = if ty.size > 0 then .err .evalError else smobGet (smobAfter h) i .data := by
  have hi := smobInv h
  obtain ⟨hl, _⟩ := List.getElem?_eq_some_iff.1 ht
  have hl2 := made_length hi
  cases ho : (smobAfter h).objs[i]? with
  | none => have := List.getElem?_eq_none_iff.1 ho; omega
  | some o =>
    have htag : o.tag = t := by
      rw [← hi.made, List.getElem?_map, ho] at ht
      simpa using ht
    simp only [scmSmobData, smobGet, ho, htag, hty]
    rfl

/-- A history with two types and two smobs. -/
example :
    let h : List SmobOp := [.set 0 .data2 9, .make 0x1000001 4 5 6, .make 0x1000000 1 2 3, .newType [98] 16, .newType [97] 0]
    tagsCreated h = [0x1000001, 0x1000000] ∧ smobsMade h = [0x1000000, 0x1000001] ∧
    lastData 0 .data2 h = some 9 ∧ lastData 0 .data h = some 1 ∧ lastData 1 .data3 h = some 6 ∧
    scmSmobData (smobAfter h) 0 = .ok 1 ∧ scmSmobData (smobAfter h) 1 = .err .evalError := by
  decide +kernel

/-- C82, limit of the claim: a number that is no tag is rejected with an error, except close to the least `long`, where the subtraction
overflows. -/
theorem c82_overflow_counterexample : (makeSmob3 (smobAfter []) (-(2 ^ 63)) 0 0 0).1 = .ub := by decide +kernel

/-! ## C83 — read options -/

/-- A call of one of the option procedures. -/
inductive OptOp
  | enable (flags : List Arg)
  | disable (flags : List Arg)
  | set (opt : String) (val : Arg)
  | options (args : List Arg)

def OptOp.run (o : Opts) : OptOp → Res (List Arg) × Opts
  | .enable l => readEnable o l
  | .disable l => readDisable o l
  | .set s v => readSet o s v
  | .options l => interface o l

/-- The options after a history of calls, newest first. -/
def optAfter : List OptOp → Opts
  | [] => defaults
  | op :: h => (op.run (optAfter h)).2

theorem change_ok (o : Opts) (args : List Arg) (ho : o.copy = true → o.positions = true) :
    (change o args).2.copy = true → (change o args).2.positions = true := by
  unfold change
  by_cases ha : args = []
  · rw [if_pos ha]; exact ho
  · rw [if_neg ha]
    cases changeLoop ⟨false, false, false, o.keywords⟩ args with
    | ok o' =>
      intro h
      by_cases hc : o'.copy = true
      · simp only [hc, if_true]
      · simp only [Bool.not_eq_true] at hc; simp [hc] at h
    | _ => exact ho

theorem interface_snd (o : Opts) (args : List Arg) : (interface o args).2 = (change o args).2 := by
  unfold interface
  cases h : change o args with
  | mk r o' => cases r <;> rfl

/-- C83: after any history of `read-enable`, `read-disable`, `read-set!` and `read-options` calls — whatever their arguments, failing or
not — an enabled `copy` comes with an enabled `positions`. -/
theorem c83_copy_positions (h : List OptOp) : (optAfter h).copy = true → (optAfter h).positions = true := by
  induction h with
  | nil => intro hh; cases hh
  | cons op h ih =>
    cases op with
    | enable l =>
      have e : optAfter (.enable l :: h) = (change (optAfter h) _).2 := interface_snd _ _
      rw [e]; exact change_ok _ _ ih
    | disable l =>
      have e : optAfter (.disable l :: h) = (change (optAfter h) _).2 := interface_snd _ _
      rw [e]; exact change_ok _ _ ih
    | set s v =>
      have e : optAfter (.set s v :: h) = (change (optAfter h) _).2 := interface_snd _ _
      rw [e]; exact change_ok _ _ ih
    | options l =>
      have e : optAfter (.options l :: h) = (change (optAfter h) _).2 := interface_snd _ _
      rw [e]; exact change_ok _ _ ih

/-- A call that fails leaves the options as they were. -/
theorem c83_error_unchanged (o : Opts) (args : List Arg) (h : ∀ l, (interface o args).1 ≠ .ok l) : (interface o args).2 = o := by
  rw [interface_snd]
  unfold interface change at h
  unfold change
  by_cases ha : args = []
  · rw [if_pos ha]
  · rw [if_neg ha] at h ⊢
    cases hc : changeLoop ⟨false, false, false, o.keywords⟩ args with
    | ok o' => rw [hc] at h; exact absurd rfl (h _)
    | _ => rfl

/-- The names of the boolean options. -/
inductive Flag | copy | positions | caseInsensitive
  deriving DecidableEq

def Flag.name : Flag → String
  | .copy => "copy"
  | .positions => "positions"
  | .caseInsensitive => "case-insensitive"

def Flag.get (o : Opts) : Flag → Bool
  | .copy => o.copy
  | .positions => o.positions
  | .caseInsensitive => o.caseInsensitive

def Flag.on (o : Opts) : Flag → Opts
  | .copy => { o with copy := true }
  | .positions => { o with positions := true }
  | .caseInsensitive => { o with caseInsensitive := true }

theorem loop_flag (o : Opts) (f : Flag) (rest : List Arg) (hr : ∀ r, rest ≠ .bool false :: r) :
    changeLoop o (.sym f.name :: rest) = changeLoop (f.on o) rest := by
  have hsw : switchOn o f.name = some (f.on o) := by cases f <;> rfl
  rw [changeLoop]
  · simp only [extractSymbol, hsw]
  · intro b h; cases h

theorem loop_keywords (o : Opts) (v : Arg) (rest : List Arg) :
    changeLoop o (.sym "keywords" :: v :: rest) = changeLoop { o with keywords := optionValue v } rest := by
  rw [changeLoop]
  · simp [extractSymbol, switchOn]
  · intro b h; cases h

theorem loop_flags (fs : List Flag) (o : Opts) (rest : List Arg) (hr : ∀ r, rest ≠ .bool false :: r) :
    changeLoop o (fs.map (fun f => .sym f.name) ++ rest) = changeLoop (fs.foldl Flag.on o) rest := by
  induction fs generalizing o with
  | nil => rfl
  | cons f fs ih =>
    rw [List.map_cons, List.cons_append, loop_flag]
    · exact ih _
    · cases fs with
      | nil => exact hr
      | cons g gs => intro r hh; cases hh

/-- The boolean options that are on, in the order of `get_read_option_setting`. -/
def flagsOn (o : Opts) : List Flag := [.caseInsensitive, .positions, .copy].filter (fun f => f.get o)

theorem setting_eq (o : Opts) :
    setting o = .sym "keywords" :: o.keywords.getD (.bool false) :: (flagsOn o).map (fun f => .sym f.name) := by
  unfold setting flagsOn
  cases o with
  | mk c p i k => cases c <;> cases p <;> cases i <;> rfl

theorem foldl_get (fs : List Flag) (o : Opts) (f : Flag) : f.get (fs.foldl Flag.on o) = (f.get o || fs.contains f) := by
  induction fs generalizing o with
  | nil => simp
  | cons g fs ih =>
    rw [List.foldl_cons, ih, List.contains_cons]
    cases f <;> cases g <;> simp [Flag.get, Flag.on] <;> rfl

theorem foldl_keywords (fs : List Flag) (o : Opts) : (fs.foldl Flag.on o).keywords = o.keywords := by
  induction fs generalizing o with
  | nil => rfl
  | cons g fs ih => rw [List.foldl_cons, ih]; cases g <;> rfl

/-- The `keywords` option survives being listed: it is not a quotation form (nor `#f`, which stands for “off”). -/
def PlainKeywords (o : Opts) : Prop := ∀ x, o.keywords = some x → x ≠ .bool false ∧ ∀ y, x ≠ .quote y

theorem plain_value {o : Opts} (h : PlainKeywords o) : optionValue (o.keywords.getD (.bool false)) = o.keywords := by
  cases hk : o.keywords with
  | none => rfl
  | some x =>
    obtain ⟨h1, h2⟩ := h x hk
    cases x with
    | quote y => exact absurd rfl (h2 y)
    | bool b => cases b with
      | false => exact absurd rfl h1
      | true => rfl
    | _ => rfl

/-- The effect of a change: exactly the flags that satisfy `p` are on, and `positions` also when `copy` is. -/
def Flags (o : Opts) (p : Flag → Bool) (k : Option Arg) : Prop :=
  o.copy = p .copy ∧ o.positions = (p .positions || p .copy) ∧ o.caseInsensitive = p .caseInsensitive ∧ o.keywords = k

theorem interface_flags (o : Opts) (args : List Arg) (fs : List Flag) (k : Option Arg) (hne : args ≠ [])
    (h : changeLoop ⟨false, false, false, o.keywords⟩ args = .ok (fs.foldl Flag.on ⟨false, false, false, k⟩)) :
    ∃ o', interface o args = (.ok (setting o'), o') ∧ Flags o' (fun f => fs.contains f) k := by
  have g := fun f => foldl_get fs ⟨false, false, false, k⟩ f
  have hk := foldl_keywords fs ⟨false, false, false, k⟩
  unfold interface change
  rw [if_neg hne, h]
  generalize fs.foldl Flag.on ⟨false, false, false, k⟩ = q at *
  have g1 : q.copy = fs.contains .copy := by simpa [Flag.get] using g .copy
  have g2 : q.positions = fs.contains .positions := by simpa [Flag.get] using g .positions
  have g3 : q.caseInsensitive = fs.contains .caseInsensitive := by simpa [Flag.get] using g .caseInsensitive
  refine ⟨_, rfl, ?_⟩
  unfold Flags
  simp only [← g1, ← g2, ← g3]
  cases hc : q.copy <;> simp [hk, hc]

/-- `read-enable` of boolean options turns exactly those on — with `positions` when `copy` is on — and keeps everything else. -/
theorem c83_enable (o : Opts) (fs : List Flag) (hk : PlainKeywords o) :
    ∃ o', readEnable o (fs.map fun f => .sym f.name) = (.ok (setting o'), o') ∧
      Flags o' (fun f => fs.contains f || f.get o) o.keywords := by
  have e : changeLoop ⟨false, false, false, o.keywords⟩ (fs.map (fun f => Arg.sym f.name) ++ setting o) =
      .ok ((fs ++ flagsOn o).foldl Flag.on ⟨false, false, false, o.keywords⟩) := by
    rw [loop_flags _ _ _ (by rw [setting_eq]; intro r hh; cases hh), setting_eq, loop_keywords, plain_value hk]
    have := loop_flags (flagsOn o) { fs.foldl Flag.on ⟨false, false, false, o.keywords⟩ with keywords := o.keywords } []
      (fun r hh => by cases hh)
    rw [List.append_nil] at this
    rw [this, List.foldl_append, changeLoop]
    congr 2
    have hk2 := foldl_keywords fs ⟨false, false, false, o.keywords⟩
    cases hq : fs.foldl Flag.on ⟨false, false, false, o.keywords⟩ with
    | mk a b c d => rw [hq] at hk2; simp only at hk2; rw [hk2]
  obtain ⟨o', h1, h2⟩ := interface_flags o _ _ _ (by rw [setting_eq]; simp) e
  refine ⟨o', h1, ?_⟩
  have hfl : ∀ f, (fs ++ flagsOn o).contains f = (fs.contains f || f.get o) := by
    intro f
    have : (flagsOn o).contains f = f.get o := by
      cases o with
      | mk c p i k => cases c <;> cases p <;> cases i <;> cases f <;> rfl
    rw [← this]
    simp
  unfold Flags at h2 ⊢
  simpa only [hfl] using h2

/-- `read-disable` of boolean options turns exactly those off and keeps everything else; `positions` stays on while `copy` is on.  The
`keywords` option must not be a symbol that is listed (it would be removed instead, `c83_keyword_counterexample`). -/
theorem c83_disable_partial (o : Opts) (fs : List Flag) (hk : PlainKeywords o)
    (hl : ∀ f ∈ fs, o.keywords ≠ some (.sym f.name)) :
    ∃ o', readDisable o (fs.map fun f => .sym f.name) = (.ok (setting o'), o') ∧
      Flags o' (fun f => f.get o && !fs.contains f) o.keywords := by
  have hmem : ∀ f : Flag, (fs.map fun f => Arg.sym f.name).contains (.sym f.name) = fs.contains f := by
    intro f
    rw [Bool.eq_iff_iff]
    simp only [List.contains_iff_mem, List.mem_map]
    constructor
    · rintro ⟨g, hg, he⟩
      have : g = f := by
        injection he with he
        cases f <;> cases g <;> first | rfl | (exact absurd he (by decide))
      exact this ▸ hg
    · intro h; exact ⟨f, h, rfl⟩
  have hkw : (fs.map fun f => Arg.sym f.name).contains (.sym "keywords") = false := by
    rw [Bool.eq_false_iff]; intro h
    simp only [List.contains_iff_mem, List.mem_map] at h
    obtain ⟨g, _, he⟩ := h
    injection he with he
    cases g <;> exact absurd he (by decide)
  have hval : (fs.map fun f => Arg.sym f.name).contains (o.keywords.getD (.bool false)) = false := by
    rw [Bool.eq_false_iff]; intro h
    simp only [List.contains_iff_mem, List.mem_map] at h
    obtain ⟨g, hg, he⟩ := h
    cases hkk : o.keywords with
    | none => rw [hkk] at he; cases he
    | some x => rw [hkk] at he; exact hl g hg (by rw [hkk]; exact congrArg some he.symm)
  have e0 : (setting o).filter (fun x => !(fs.map fun f => Arg.sym f.name).contains x) =
      .sym "keywords" :: o.keywords.getD (.bool false) :: ((flagsOn o).filter fun f => !fs.contains f).map (fun f => .sym f.name) := by
    rw [setting_eq, List.filter_cons_of_pos (by rw [hkw]; rfl), List.filter_cons_of_pos (by rw [hval]; rfl), List.filter_map]
    congr 3
    apply List.filter_congr
    intro f _
    simp only [Function.comp, hmem]
  have e : changeLoop ⟨false, false, false, o.keywords⟩ ((setting o).filter (fun x => !(fs.map fun f => Arg.sym f.name).contains x)) =
      .ok (((flagsOn o).filter fun f => !fs.contains f).foldl Flag.on ⟨false, false, false, o.keywords⟩) := by
    rw [e0, loop_keywords, plain_value hk]
    have := loop_flags ((flagsOn o).filter fun f => !fs.contains f) ⟨false, false, false, o.keywords⟩ [] (fun r hh => by cases hh)
    rw [List.append_nil] at this
    rw [this, changeLoop]
  obtain ⟨o', h1, h2⟩ := interface_flags o _ _ _ (by rw [e0]; simp) e
  refine ⟨o', h1, ?_⟩
  have hfl : ∀ f, ((flagsOn o).filter fun f => !fs.contains f).contains f = (f.get o && !fs.contains f) := by
    intro f
    have : (flagsOn o).contains f = f.get o := by
      cases o with
      | mk c p i k => cases c <;> cases p <;> cases i <;> cases f <;> rfl
    rw [← this, Bool.eq_iff_iff]
    simp [List.mem_filter]
  unfold Flags at h2 ⊢
  simpa only [hfl] using h2

/-- The list delivered by an option call describes the options completely: giving it back restores them, whatever they are meanwhile. -/
theorem c83_restore (o now : Opts) (hk : PlainKeywords o) (hc : o.copy = true → o.positions = true) :
    interface now (setting o) = (.ok (setting o), o) := by
  have e : changeLoop ⟨false, false, false, now.keywords⟩ (setting o) =
      .ok ((flagsOn o).foldl Flag.on ⟨false, false, false, o.keywords⟩) := by
    rw [setting_eq, loop_keywords, plain_value hk]
    have := loop_flags (flagsOn o) ⟨false, false, false, o.keywords⟩ [] (fun r hh => by cases hh)
    rw [List.append_nil] at this
    rw [this, changeLoop]
  obtain ⟨o', h1, h2⟩ := interface_flags now _ _ _ (by rw [setting_eq]; simp) e
  have : o' = o := by
    have hfl : ∀ f, (flagsOn o).contains f = f.get o := by
      intro f
      cases o with
      | mk c p i k => cases c <;> cases p <;> cases i <;> cases f <;> rfl
    unfold Flags at h2
    simp only [hfl] at h2
    obtain ⟨a, b, c, d⟩ := h2
    cases o with
    | mk oc op oi ok =>
      cases o' with
      | mk c' p' i' k' =>
        simp only [Flag.get] at a b c d hc
        subst a; subst c; subst d; subst b
        cases c' <;> cases op <;> simp_all
  rw [h1, this]

/-- Hypotheses met by the defaults and by a state with keywords set. -/
example : PlainKeywords defaults ∧ PlainKeywords ⟨true, true, false, some (.sym "prefix")⟩ ∧
    (readEnable defaults [.sym "copy"]).2 = ⟨true, true, false, none⟩ ∧
    (readDisable ⟨true, true, true, none⟩ [.sym "copy", .sym "positions"]).2 = ⟨false, false, true, none⟩ := by
  refine ⟨(fun x h => by cases h), fun x h => ?_, by decide +kernel, by decide +kernel⟩
  injection h with h; subst h
  exact ⟨(fun h => by cases h), (fun y h => by cases h)⟩

/-- Stronger readings that fail: `(read-set! positions #f)` leaves an enabled `positions` on; … -/
theorem c83_set_counterexample : (readSet defaults "positions" (.bool false)).2.positions = true := by decide +kernel

/-- … `(read-disable 'positions)` leaves it on while `copy` is on (so disabling is not always effective); … -/
theorem c83_disable_counterexample :
    (readDisable ⟨true, true, false, none⟩ [.sym "positions"]).2.positions = true := by decide +kernel

/-- … and disabling the symbol that is the value of `keywords` (or `keywords` itself once it has a value that is no option name) is an error. -/
theorem c83_keyword_counterexample :
    (readDisable ⟨false, true, false, some (.sym "prefix")⟩ [.sym "keywords"]).1 = .err .evalError ∧
    (readDisable ⟨false, false, false, some (.sym "copy")⟩ [.sym "copy"]).1 = .err .evalError := by decide +kernel

end Pscm.Misc
