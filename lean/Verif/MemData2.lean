import Verif.MemData
/-! # Data in memory: comparisons and searches -/
namespace Pscm
open Spec
namespace Mem
variable {h h' : Heap}

/-! ## Texts -/

/-- The bytes of a text. -/
def bytesOf (s : String) : List UInt8 := s.toList.map fun c => UInt8.ofNat c.toNat

theorem toNat_byte (b : UInt8) : (Char.ofNat b.toNat).toNat = b.toNat := by
  have hb : b.toNat < 256 := b.toNat_lt
  unfold Char.ofNat
  rw [dif_pos (Or.inl (by omega))]
  simp [Char.ofNatAux, Char.toNat]

theorem bytesOf_textOf (bs : List UInt8) : bytesOf (textOf bs) = bs := by
  unfold bytesOf textOf
  rw [String.toList_ofList, List.map_map]
  conv => rhs; rw [← List.map_id bs]
  apply List.map_congr_left
  intro b _
  show UInt8.ofNat (Char.ofNat b.toNat).toNat = b
  rw [toNat_byte]
  simp

theorem textOf_inj {s t : List UInt8} : textOf s = textOf t ↔ s = t :=
  ⟨fun e => by rw [← bytesOf_textOf s, e, bytesOf_textOf], fun e => by rw [e]⟩

/-! ## Comparison by keys -/

theorem eqP_key (F : FArith) {a b : Obj} {u w : Ref.Val} {r : Bool} (ha : Holds h a.v u) (hb : Holds h b.v w) (hr : Ref.sameKey u w = some r) :
    eqP F h a b = .ok r ∧ eqvP F h a b = .ok r := by
  have key : eqP F h a b = .ok r := by
    obtain ⟨i, v⟩ := a
    obtain ⟨j, v'⟩ := b
    simp only at ha hb
    cases ha <;> cases hb <;> simp [Ref.sameKey, Ref.Val.key] at hr <;> subst hr <;>
      simp [eqP, Val.ty, numFloatMix, numberEq, needsFloat, NumV.isFloat, Val.toNumV, binInt, symEq, textOf_inj]
    all_goals (try (intro _ e; exact e))
    all_goals (try (first | (rw [cstr_eq_self ‹_›]; done) | (split <;> simp_all [cstr_eq_self]) | simp_all [cstr_eq_self]))
    all_goals (try (split <;> simp_all))
  exact ⟨key, key⟩

theorem legacy_key (F : FArith) {a b : Obj} {u w : Ref.Val} {r : Bool} (ha : Holds h a.v u) (hb : Holds h b.v w) (hr : Ref.sameKey u w = some r) (fuel : Nat) :
    legacyEq F h (fuel + 1) a b = .ok r := by
  obtain ⟨i, v⟩ := a
  obtain ⟨j, v'⟩ := b
  simp only at ha hb
  cases ha <;> cases hb <;> simp [Ref.sameKey, Ref.Val.key] at hr <;> subst hr <;>
    simp [legacyEq, Val.ty, numFloatMix, numberEq, needsFloat, NumV.isFloat, Val.toNumV, binInt, symEq, textOf_inj]
  all_goals (try simp_all [cstr_eq_self])

theorem memv_key (F : FArith) {a b : Obj} {u w : Ref.Val} {r : Bool} (ha : Holds h a.v u) (hb : Holds h b.v w) (hs : u.isSimple = true) (hr : Ref.sameKey u w = some r) :
    memvEqv F a b = .ok r := by
  obtain ⟨i, v⟩ := a
  obtain ⟨j, v'⟩ := b
  simp only at ha hb
  cases ha <;> simp [Ref.Val.isSimple] at hs <;> cases hb <;> simp [Ref.sameKey, Ref.Val.key] at hr <;> subst hr <;>
    simp [memvEqv, Val.ty, numFloatMix, numberEq, needsFloat, NumV.isFloat, Val.toNumV, binInt]
  all_goals (try (intro _ e; exact e))

theorem assq_key {a b : Obj} {u w : Ref.Val} {r : Bool} (ha : Holds h a.v u) (hb : Holds h b.v w) (hs : u.isName = true) (hr : Ref.sameKey u w = some r) :
    assqEq a b = r := by
  obtain ⟨i, v⟩ := a
  obtain ⟨j, v'⟩ := b
  simp only at ha hb
  cases ha <;> simp [Ref.Val.isName] at hs <;> cases hb <;> simp [Ref.sameKey, Ref.Val.key] at hr <;> subst hr <;>
    simp [assqEq, textOf_inj]
  all_goals (try (intro _ e; exact e))

/-! ## Comparison of data -/

/-- A datum as a tree. -/
def treeOf : Ref.Val → Tree
  | .nil => .nil
  | .bool b => .bool b
  | .num n => .int n
  | .chr c => .chr c
  | .sym x => .sym (bytesOf x)
  | .str s => .str (bytesOf s)
  | .pair a d => .cons (treeOf a) (treeOf d)
  | _ => .nil

theorem datum_pair {u w : Ref.Val} {d : Ref.Datum} (hd : (Ref.Val.pair u w).datum = some d) : ∃ a b, u.datum = some a ∧ w.datum = some b ∧ d = .pair a b := by
  simp only [Ref.Val.datum] at hd
  cases hx : u.datum with
  | none => rw [hx] at hd; cases hd
  | some a =>
    cases hy : w.datum with
    | none => rw [hx, hy] at hd; cases hd
    | some b => rw [hx, hy] at hd; cases hd; exact ⟨a, b, rfl, rfl, rfl⟩

theorem zero_text {s : List UInt8} : (textOf s).toList.contains '\x00' = s.contains 0 := by
  simp only [textOf, String.toList_ofList]
  induction s with
  | nil => rfl
  | cons c s ih =>
    simp only [List.map_cons, List.contains_cons, ih]
    congr 1
    have key : Char.ofNat c.toNat = '\x00' ↔ c = 0 := by
      constructor
      · intro he
        have h2 := congrArg Char.toNat he
        rw [toNat_byte] at h2
        exact UInt8.toNat_inj.1 (by simpa using h2)
      · rintro rfl; rfl
    by_cases hc : c = 0
    · subst hc; rfl
    · have : ¬ Char.ofNat c.toNat = '\x00' := fun he => hc (key.1 he)
      rw [show (0 == c) = false from by simpa using fun e => hc e.symm, show ('\x00' == Char.ofNat c.toNat) = false from by simpa using fun e => this e.symm]

theorem datum_text {s : List UInt8} {d : Ref.Datum} (hd : (Ref.Val.str (textOf s)).datum = some d) : (0 : UInt8) ∉ s := by
  simp only [Ref.Val.datum, zero_text] at hd
  split at hd
  · cases hd
  · rename_i hc; simpa using hc

theorem denotes {v : Val} {u : Ref.Val} (hv : Holds h v u) : ∀ {d : Ref.Datum}, u.datum = some d → Denotes true h v (treeOf u) := by
  induction hv with
  | nil => intros; exact .nil
  | bool b => intros; exact .bool b
  | num n _ => intros; exact .int n
  | chr c => intros; exact .chr c
  | sym s hs _ => intros; simp only [treeOf, bytesOf_textOf]; exact .sym s hs
  | str a s ha _ => intro d hd; simp only [treeOf, bytesOf_textOf]; exact .str a s ha (datum_text hd)
  | last ha hd hn _ ih => intro d hdat; obtain ⟨x, y, hx, -, -⟩ := datum_pair hdat; exact .pairLast _ _ _ ha hn (ih hx)
  | next ha hd hn _ hw ih1 ih2 =>
    intro d hdat
    obtain ⟨x, y, hx, hy, -⟩ := datum_pair hdat
    obtain ⟨m, hb, hm⟩ : ∃ m : Node, h.nodes[_]? = some m ∧ m.dotted = false := by
      cases hw with
      | last hb hd _ _ => exact ⟨_, hb, hd⟩
      | next hb hd _ _ _ => exact ⟨_, hb, hd⟩
      | dot hb hd _ _ _ _ _ _ _ _ => exact ⟨_, hb, hd⟩
    exact .pairNext _ _ _ m _ _ ha hn hb hm (ih1 hx) (ih2 hy)
  | dot ha hd hn hb hm hl h1 h2 _ _ ih1 ih2 =>
    intro d hdat
    obtain ⟨x, y, hx, hy, -⟩ := datum_pair hdat
    exact .pairDot _ _ _ _ _ _ rfl ha hn hb hm (ih1 hx) (ih2 hy)

theorem treeOf_inj {v : Val} {u : Ref.Val} (hv : Holds h v u) : ∀ {v' : Val} {w : Ref.Val}, Holds h v' w → (treeOf u = treeOf w ↔ u = w) := by
  have pair : ∀ {a d : Ref.Val}, (∀ {v' w}, Holds h v' w → (treeOf a = treeOf w ↔ a = w)) → (∀ {v' w}, Holds h v' w → (treeOf d = treeOf w ↔ d = w)) →
      ∀ {v' : Val} {w : Ref.Val}, Holds h v' w → (treeOf (.pair a d) = treeOf w ↔ .pair a d = w) := by
    intro a d iha ihd v' w hw
    cases hw with
    | last _ _ _ hu => simp [treeOf, iha hu, ← ihd (.nil : Holds h _ _)]
    | next _ _ _ hu hw => simp [treeOf, iha hu, ihd hw]
    | dot _ _ _ _ _ _ _ _ hu hw => simp [treeOf, iha hu, ihd hw]
    | _ => simp [treeOf]
  induction hv with
  | last _ _ _ _ ih => exact pair ih (fun {v' w} hw => by cases hw <;> simp [treeOf])
  | next _ _ _ _ _ ih1 ih2 => exact pair ih1 ih2
  | dot _ _ _ _ _ _ _ _ _ _ ih1 ih2 => exact pair ih1 ih2
  | _ => intro v' w hw; cases hw <;> simp [treeOf, bytesOf_textOf, textOf_inj]

theorem datum_inj {u : Ref.Val} : ∀ {w : Ref.Val} {a b : Ref.Datum}, u.datum = some a → w.datum = some b → (a = b ↔ u = w) := by
  induction u with
  | pair x y ihx ihy =>
    intro w a b hu hw
    simp only [Ref.Val.datum] at hu
    cases hx : x.datum with
    | none => rw [hx] at hu; cases hu
    | some dx =>
      cases hy : y.datum with
      | none => rw [hx, hy] at hu; cases hu
      | some dy =>
        rw [hx, hy] at hu
        cases hu
        cases w with
        | pair x' y' =>
          simp only [Ref.Val.datum] at hw
          cases hx' : x'.datum with
          | none => rw [hx'] at hw; cases hw
          | some dx' =>
            cases hy' : y'.datum with
            | none => rw [hx', hy'] at hw; cases hw
            | some dy' =>
              rw [hx', hy'] at hw
              cases hw
              simp [ihx hx hx', ihy hy hy']
        | str s => simp only [Ref.Val.datum] at hw; split at hw <;> cases hw; simp
        | _ => first | (cases hw; simp) | cases hw
  | str s =>
    intro w a b hu hw
    simp only [Ref.Val.datum] at hu
    split at hu
    · cases hu
    cases hu
    cases w with
    | pair x' y' =>
      simp only [Ref.Val.datum] at hw
      cases hx' : x'.datum with
      | none => rw [hx'] at hw; cases hw
      | some dx' =>
        cases hy' : y'.datum with
        | none => rw [hx', hy'] at hw; cases hw
        | some dy' => rw [hx', hy'] at hw; cases hw; simp
    | str s' => simp only [Ref.Val.datum] at hw; split at hw <;> cases hw; simp
    | _ => first | (cases hw; simp) | cases hw
  | _ =>
    intro w a b hu hw
    cases hu
    all_goals
      cases w with
      | pair x' y' =>
        simp only [Ref.Val.datum] at hw
        cases hx' : x'.datum with
        | none => rw [hx'] at hw; cases hw
        | some dx' =>
          cases hy' : y'.datum with
          | none => rw [hx', hy'] at hw; cases hw
          | some dy' => rw [hx', hy'] at hw; cases hw; simp
      | str s' => simp only [Ref.Val.datum] at hw; split at hw <;> cases hw; simp
      | _ => first | (cases hw; simp) | cases hw

theorem equal_data (F : FArith) {a b : Obj} {u w : Ref.Val} {d e : Ref.Datum} (ha : Holds h a.v u) (hb : Holds h b.v w) (hu : u.datum = some d) (hw : w.datum = some e) :
    ∃ N, ∀ fuel, N ≤ fuel → equalP F h fuel a b = .ok (decide (d = e)) := by
  obtain ⟨r, N, hr, hN⟩ := c20_equal F h a b _ _ (denotes ha hu) (denotes hb hw)
  refine ⟨N, fun fuel hf => ?_⟩
  rw [hN fuel hf, treeOf_inj ha hb, ← datum_inj hu hw] at *
  simp [← hr]

theorem denotes_proper {v : Val} {u : Ref.Val} (hv : Holds h v u) : ∀ {d : Ref.Datum}, u.datum = some d → d.proper = true → Denotes false h v (treeOf u) := by
  induction hv with
  | nil => intros; exact .nil
  | bool b => intros; exact .bool b
  | num n _ => intros; exact .int n
  | chr c => intros; exact .chr c
  | sym s hs _ => intros; simp only [treeOf, bytesOf_textOf]; exact .sym s hs
  | str a s ha _ => intro d hd _; simp only [treeOf, bytesOf_textOf]; exact .str a s ha (datum_text hd)
  | @last a n u ha hd hn _ ih =>
    intro d hu hp
    simp only [Ref.Val.datum] at hu
    cases hx : u.datum with
    | none => rw [hx] at hu; cases hu
    | some dx =>
      rw [hx] at hu; cases hu
      exact .pairLast _ _ _ ha hn (ih hx (by simpa [Ref.Datum.proper] using hp))
  | @next a b n u w ha hd hn hu hw ih1 ih2 =>
    intro d hdat hp
    obtain ⟨m, hb, hm⟩ : ∃ m, h.nodes[b]? = some m ∧ m.dotted = false := by
      cases hw with
      | last hb hd _ _ => exact ⟨_, hb, hd⟩
      | next hb hd _ _ _ => exact ⟨_, hb, hd⟩
      | dot hb hd _ _ _ _ _ _ _ _ => exact ⟨_, hb, hd⟩
    obtain ⟨w1, w2, rfl⟩ : ∃ x y, w = .pair x y := by cases hw <;> exact ⟨_, _, rfl⟩
    simp only [Ref.Val.datum] at hdat
    cases hx : u.datum with
    | none => rw [hx] at hdat; cases hdat
    | some dx =>
      cases h1 : w1.datum with
      | none => rw [hx, h1] at hdat; cases hdat
      | some d1 =>
        cases h2 : w2.datum with
        | none => rw [hx, h1, h2] at hdat; cases hdat
        | some d2 =>
          rw [hx, h1, h2] at hdat
          cases hdat
          simp only [Ref.Datum.proper, Bool.and_eq_true] at hp
          exact .pairNext _ _ _ m _ _ ha hn hb hm (ih1 hx hp.1) (ih2 (d := .pair d1 d2) (by simp [Ref.Val.datum, h1, h2]) hp.2)
  | @dot a b n m u w ha hd hn hb hm hl h1 h2 hu hw _ _ =>
    intro d hdat hp
    simp only [Ref.Val.datum] at hdat
    cases hx : u.datum with
    | none => rw [hx] at hdat; cases hdat
    | some dx =>
      cases hy : w.datum with
      | none => rw [hx, hy] at hdat; cases hdat
      | some dy =>
        rw [hx, hy] at hdat
        cases hdat
        exfalso
        clear hb
        generalize m.data.v = mv at hw h1 h2
        cases hw with
        | nil => exact h2 rfl
        | last => exact h1 rfl
        | next => exact h1 rfl
        | dot => exact h1 rfl
        | str => simp only [Ref.Val.datum] at hy; split at hy <;> cases hy; simp [Ref.Datum.proper] at hp
        | _ => cases hy; simp [Ref.Datum.proper] at hp

theorem legacy_data (F : FArith) {a b : Obj} {u w : Ref.Val} {r : Bool} (ha : Holds h a.v u) (hb : Holds h b.v w) (hr : Ref.sameDatum u w = some r) :
    ∃ N, ∀ fuel, N ≤ fuel → legacyEq F h fuel a b = .ok r := by
  unfold Ref.sameDatum at hr
  cases hu : u.datum with
  | none => rw [hu] at hr; cases hr
  | some d =>
    cases hw : w.datum with
    | none => rw [hu, hw] at hr; cases hr
    | some e =>
      rw [hu, hw] at hr
      simp only at hr
      split at hr
      · rename_i hp
        cases hr
        obtain ⟨r, N, hr, hN⟩ := c22_agree_partial F h a b _ _ (denotes_proper ha hu hp.1) (denotes_proper hb hw hp.2)
        refine ⟨N, fun fuel hf => ?_⟩
        rw [(hN fuel hf).1]
        rw [treeOf_inj ha hb, ← datum_inj hu hw] at hr
        simp [← hr]
      · cases hr

end Mem
end Pscm
