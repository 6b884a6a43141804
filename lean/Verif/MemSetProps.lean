import Verif.MemData3
import Verif.MemSetSpec
import Verif.ListProps
/-!
# C151: an assignment to a pair, on whole data

C12 says what `set-car!` and `set-cdr!` do to the cells.  Here: what the objects in memory hold afterwards.
-/
namespace Pscm
open Spec

namespace Mem
variable {h : Heap}

/-- A value holds one datum. -/
theorem holds_one {w : Val} {u : Ref.Val} (hw : Holds h w u) : ∀ {u' : Ref.Val}, Holds h w u' → u = u' := by
  induction hw with
  | nil => intro u' k; cases k; rfl
  | bool b => intro u' k; cases k; rfl
  | num n _ => intro u' k; cases k; rfl
  | chr c => intro u' k; cases k; rfl
  | sym s _ _ => intro u' k; cases k; rfl
  | str a s hs _ =>
    intro u' k
    cases k with
    | str _ s' hs' _ => rw [hs] at hs'; cases hs'; rfl
  | last hn hd hx _ ih =>
    intro u' k
    cases k with
    | last hn' hd' hx' k1 => rw [hn] at hn'; cases hn'; rw [ih k1]
    | next hn' hd' hx' _ _ => rw [hn] at hn'; cases hn'; rw [hx] at hx'; cases hx'
    | dot hn' hd' hx' _ _ _ _ _ _ _ => rw [hn] at hn'; cases hn'; rw [hx] at hx'; cases hx'
  | next hn hd hx _ k2 ih1 ih2 =>
    intro u' k
    cases k with
    | last hn' hd' hx' k1 => rw [hn] at hn'; cases hn'; rw [hx] at hx'; cases hx'
    | next hn' hd' hx' j1 j2 => rw [hn] at hn'; cases hn'; rw [hx] at hx'; cases hx'; rw [ih1 j1, ih2 j2]
    | dot hn' hd' hx' hm hf _ _ _ j1 j2 =>
      rw [hn] at hn'; cases hn'; rw [hx] at hx'; cases hx'
      cases k2 with
      | last hq hqd _ _ => rw [hm] at hq; cases hq; rw [hf] at hqd; cases hqd
      | next hq hqd _ _ _ => rw [hm] at hq; cases hq; rw [hf] at hqd; cases hqd
      | dot hq hqd _ _ _ _ _ _ _ _ => rw [hm] at hq; cases hq; rw [hf] at hqd; cases hqd
  | dot hn hd hx hm hf _ _ _ _ _ ih1 ih2 =>
    intro u' k
    cases k with
    | last hn' hd' hx' k1 => rw [hn] at hn'; cases hn'; rw [hx] at hx'; cases hx'
    | next hn' hd' hx' j1 j2 =>
      rw [hn] at hn'; cases hn'; rw [hx] at hx'; cases hx'
      cases j2 with
      | last hq hqd _ _ => rw [hm] at hq; cases hq; rw [hf] at hqd; cases hqd
      | next hq hqd _ _ _ => rw [hm] at hq; cases hq; rw [hf] at hqd; cases hqd
      | dot hq hqd _ _ _ _ _ _ _ _ => rw [hm] at hq; cases hq; rw [hf] at hqd; cases hqd
    | dot hn' hd' hx' hm' hf' _ _ _ j1 j2 =>
      rw [hn] at hn'; cases hn'; rw [hx] at hx'; cases hx'
      rw [hm] at hm'; cases hm'
      rw [ih1 j1, ih2 j2]

/-- The number of pairs of a datum. -/
def pairs : Ref.Val → Nat
  | .pair a d => pairs a + pairs d + 1
  | _ => 0

/-- A list node that is used and is a pair holds a part of the datum. -/
theorem uses_holds {w : Val} {u : Ref.Val} (hw : Holds h w u) : ∀ {a : Addr} {d : Ref.Val}, Uses h w a → Holds h (.list a) d → pairs d ≤ pairs u := by
  induction hw with
  | nil => intro a d k; cases k
  | bool b => intro a d k; cases k
  | num n _ => intro a d k; cases k
  | chr c => intro a d k; cases k
  | sym s _ _ => intro a d k; cases k
  | str a s hs _ => intro a d k; cases k
  | last hn hd hx hu ih =>
    intro a d k hh
    cases k with
    | here => rw [holds_one (.last hn hd hx hu) hh]; exact Nat.le_refl _
    | car hn' k => rw [hn] at hn'; cases hn'; have := ih k hh; simp only [pairs]; omega
    | cdr hn' hx' k => rw [hn] at hn'; cases hn'; rw [hx] at hx'; cases hx'
  | next hn hd hx hu hw ih1 ih2 =>
    intro a d k hh
    cases k with
    | here => rw [holds_one (.next hn hd hx hu hw) hh]; exact Nat.le_refl _
    | car hn' k => rw [hn] at hn'; cases hn'; have := ih1 k hh; simp only [pairs]; omega
    | cdr hn' hx' k => rw [hn] at hn'; cases hn'; rw [hx] at hx'; cases hx'; have := ih2 k hh; simp only [pairs]; omega
  | dot hn hd hx hm hf hnn h1 h2 hu hw ih1 ih2 =>
    intro a d k hh
    cases k with
    | here => rw [holds_one (.dot hn hd hx hm hf hnn h1 h2 hu hw) hh]; exact Nat.le_refl _
    | car hn' k => rw [hn] at hn'; cases hn'; have := ih1 k hh; simp only [pairs]; omega
    | cdr hn' hx' k =>
      rw [hn] at hn'; cases hn'; rw [hx] at hx'; cases hx'
      cases k with
      | here =>
        cases hh with
        | last hq hqd _ _ => rw [hm] at hq; cases hq; rw [hf] at hqd; cases hqd
        | next hq hqd _ _ _ => rw [hm] at hq; cases hq; rw [hf] at hqd; cases hqd
        | dot hq hqd _ _ _ _ _ _ _ _ => rw [hm] at hq; cases hq; rw [hf] at hqd; cases hqd
      | car hq k => rw [hm] at hq; cases hq; have := ih2 k hh; simp only [pairs]; omega
      | cdr hq hqx k => rw [hm] at hq; cases hq; rw [hnn] at hqx; cases hqx

/-- Data that do not use the node do not see that it changes. -/
theorem holds_frame {h' : Heap} {a : Addr} (hn : ∀ b n, b ≠ a → h.nodes[b]? = some n → h'.nodes[b]? = some n) (hs : h'.strs = h.strs) {w : Val} {u : Ref.Val}
    (hw : Holds h w u) : ¬ Uses h w a → Holds h' w u := by
  induction hw with
  | nil => intro _; exact .nil
  | bool b => intro _; exact .bool b
  | num n k => intro _; exact .num n k
  | chr c => intro _; exact .chr c
  | sym s k1 k2 => intro _; exact .sym s k1 k2
  | str b s k1 k2 => intro _; exact .str b s (by rw [hs]; exact k1) k2
  | last kn hd hx hu ih =>
    intro hu
    refine .last (hn _ _ (fun e => hu (e ▸ .here)) kn) hd hx (ih fun k => hu (.car kn k))
  | next kn hd hx _ _ ih1 ih2 =>
    intro hu
    exact .next (hn _ _ (fun e => hu (e ▸ .here)) kn) hd hx (ih1 fun k => hu (.car kn k)) (ih2 fun k => hu (.cdr kn hx k))
  | dot kn hd hx km hf hnn h1 h2 _ _ ih1 ih2 =>
    intro hu
    exact .dot (hn _ _ (fun e => hu (e ▸ .here)) kn) hd hx (hn _ _ (fun e => hu (.cdr kn hx (e ▸ .here))) km) hf hnn h1 h2 (ih1 fun k => hu (.car kn k))
      (ih2 fun k => hu (.cdr kn hx (.car km k)))

/-- All data are still data if the changed pair holds one: the data with the pair read anew. -/
theorem holds_still {h' : Heap} {a : Addr} (hn : ∀ b n, b ≠ a → h.nodes[b]? = some n → h'.nodes[b]? = some n) (hs : h'.strs = h.strs) {d d0 : Ref.Val}
    (ha : Holds h' (.list a) d) (ha0 : Holds h (.list a) d0) {w : Val} {u : Ref.Val} (hw : Holds h w u) : ∃ u', ReadWith h a d w u' ∧ Holds h' w u' := by
  induction hw with
  | nil => exact ⟨_, .apart .nil (by intro k; cases k), .nil⟩
  | bool b => exact ⟨_, .apart (.bool b) (by intro k; cases k), .bool b⟩
  | num n k => exact ⟨_, .apart (.num n k) (by intro k; cases k), .num n k⟩
  | chr c => exact ⟨_, .apart (.chr c) (by intro k; cases k), .chr c⟩
  | sym s k1 k2 => exact ⟨_, .apart (.sym s k1 k2) (by intro k; cases k), .sym s k1 k2⟩
  | str b s k1 k2 => exact ⟨_, .apart (.str b s k1 k2) (by intro k; cases k), .str b s (by rw [hs]; exact k1) k2⟩
  | @last b n u kn hd hx hu ih =>
    by_cases e : b = a
    · subst e; exact ⟨_, .here, ha⟩
    · obtain ⟨u', r, hu'⟩ := ih
      exact ⟨_, .last e kn hd hx r, .last (hn _ _ e kn) hd hx hu'⟩
  | @next b c n u w kn hd hx _ _ ih1 ih2 =>
    by_cases e : b = a
    · subst e; exact ⟨_, .here, ha⟩
    · obtain ⟨u', r1, hu'⟩ := ih1
      obtain ⟨w', r2, hw'⟩ := ih2
      exact ⟨_, .next e kn hd hx r1 r2, .next (hn _ _ e kn) hd hx hu' hw'⟩
  | @dot b c n m u w kn hd hx km hf hnn h1 h2 _ _ ih1 ih2 =>
    by_cases e : b = a
    · subst e; exact ⟨_, .here, ha⟩
    · obtain ⟨u', r1, hu'⟩ := ih1
      obtain ⟨w', r2, hw'⟩ := ih2
      have e' : c ≠ a := by
        rintro rfl
        cases ha0 with
        | last hq hqd _ _ => rw [km] at hq; cases hq; rw [hf] at hqd; cases hqd
        | next hq hqd _ _ _ => rw [km] at hq; cases hq; rw [hf] at hqd; cases hqd
        | dot hq hqd _ _ _ _ _ _ _ _ => rw [km] at hq; cases hq; rw [hf] at hqd; cases hqd
      exact ⟨_, .dot e kn hd hx km hf r1 r2, .dot (hn _ _ e kn) hd hx (hn _ _ e' km) hf hnn h1 h2 hu' hw'⟩

/-- What used the changed pair still uses it. -/
theorem uses_frame {h' : Heap} {a : Addr} (hn : ∀ b n, b ≠ a → h.nodes[b]? = some n → h'.nodes[b]? = some n) {w : Val} {b : Addr} (hw : Uses h w b) : b = a → Uses h' w a := by
  induction hw with
  | here => rintro rfl; exact .here
  | @car c b n kn _ ih =>
    intro e
    by_cases ec : c = a
    · subst ec; exact .here
    · exact .car (hn _ _ ec kn) (ih e)
  | @cdr c b d n kn hx _ ih =>
    intro e
    by_cases ec : c = a
    · subst ec; exact .here
    · exact .cdr (hn _ _ ec kn) hx (ih e)

end Mem
open Mem

/-- **C151** `(set-car! p x)` where `p` holds the pair `(u . w)` and `x` the datum `v`, which does not contain the pair: afterwards `p` holds `(v . w)`; what does not contain the pair holds the same
datum as before; and whatever held a datum holds this datum with the pair
read as what it is now. -/
theorem c151_set_car_partial {h : Heap} {p x : Obj} {a : Addr} {u w v : Ref.Val} (hp : p.v = .list a) (hd : Holds h p.v (.pair u w)) (hx : Holds h x.v v) (hnx : ¬ Uses h x.v a) :
    ∃ h', setCar p x h = (.ok Obj.none, h') ∧ Holds h' p.v (.pair v w) ∧ (∀ o d, Holds h o d → ¬ Uses h o a → Holds h' o d) ∧ ∀ o d, Holds h o d → ∃ d', ReadWith h a (.pair v w) o d' ∧ Holds h' o d' := by
  rw [hp] at hd
  have hd0 := hd
  have key : ∀ n, h.nodes[a]? = some n → ∃ h', setCar p x h = (.ok Obj.none, h') ∧ h'.nodes[a]? = some { n with data := x } ∧ h'.strs = h.strs ∧
      ∀ b m, b ≠ a → h.nodes[b]? = some m → h'.nodes[b]? = some m := by
    intro n hn
    have hlt := getElem?_lt hn
    refine ⟨{ h with nodes := h.nodes.set a { n with data := x } }, ?_, ?_, rfl, ?_⟩
    · simp only [setCar, hp]
      rw [M.bind_ok (getNode_ok hn)]
      simp [M.bind_app, setNode, hlt]
    · simp [List.getElem?_set, hlt]
    · intro b m hb hm
      show (h.nodes.set a _)[b]? = _
      rw [List.getElem?_set_ne (Ne.symm hb)]; exact hm
  have fin : ∀ n, h.nodes[a]? = some n → (∀ h', h'.nodes[a]? = some { n with data := x } → h'.strs = h.strs → (∀ b m, b ≠ a → h.nodes[b]? = some m → h'.nodes[b]? = some m) →
      Holds h' x.v v → Holds h' (.list a) (.pair v w)) →
      ∃ h', setCar p x h = (.ok Obj.none, h') ∧ Holds h' p.v (.pair v w) ∧ (∀ o d, Holds h o d → ¬ Uses h o a → Holds h' o d) ∧ ∀ o d, Holds h o d → ∃ d', ReadWith h a (.pair v w) o d' ∧ Holds h' o d' := by
    intro n hn hk
    obtain ⟨h', e1, e2, e3, e4⟩ := key n hn
    have hpd := hk h' e2 e3 e4 (holds_frame e4 e3 hx hnx)
    refine ⟨h', e1, by rw [hp]; exact hpd, fun o d ho hu => holds_frame e4 e3 ho hu, fun o d ho => holds_still e4 e3 hpd hd0 ho⟩
  cases hd with
  | last hn hdt hxn hu => exact fin _ hn fun h' k1 k2 k3 k4 => .last k1 hdt hxn k4
  | next hn hdt hxn hu hw =>
    refine fin _ hn fun h' k1 k2 k3 k4 => .next k1 hdt hxn k4 (holds_frame k3 k2 hw fun hus => ?_)
    have := uses_holds hw hus hd0
    simp only [pairs] at this
    omega
  | dot hn hdt hxn hm hf hnn h1 h2 hu hw =>
    refine fin _ hn fun h' k1 k2 k3 k4 => .dot k1 hdt hxn (k3 _ _ ?_ hm) hf hnn h1 h2 k4 (holds_frame k3 k2 hw fun hus => ?_)
    · rintro rfl
      rw [hn] at hm; cases hm; rw [hf] at hdt; cases hdt
    · have := uses_holds hw hus hd0
      simp only [pairs] at this
      omega

/-- **C151** `(set-cdr! p x)` where `p` holds the pair `(u . w)` and `x` the datum `v`, which does not contain the pair: afterwards `p` holds `(u . v)`; what does not contain the pair holds the same
datum as before; and whatever held a datum holds this datum with the pair
read as what it is now. -/
theorem c151_set_cdr_partial {h : Heap} {p x : Obj} {a : Addr} {u w v : Ref.Val} (hp : p.v = .list a) (hd : Holds h p.v (.pair u w)) (hx : Holds h x.v v) (hnx : ¬ Uses h x.v a) :
    ∃ h', setCdr p x h = (.ok Obj.none, h') ∧ Holds h' p.v (.pair u v) ∧ (∀ o d, Holds h o d → ¬ Uses h o a → Holds h' o d) ∧ ∀ o d, Holds h o d → ∃ d', ReadWith h a (.pair u v) o d' ∧ Holds h' o d' := by
  rw [hp] at hd
  have hd0 := hd
  have hcar : ∃ n, h.nodes[a]? = some n ∧ n.dotted = false ∧ Holds h n.data.v u := by
    cases hd with
    | last hn hdt hxn hu => exact ⟨_, hn, hdt, hu⟩
    | next hn hdt hxn hu hw => exact ⟨_, hn, hdt, hu⟩
    | dot hn hdt hxn hm hf hnn h1 h2 hu hw => exact ⟨_, hn, hdt, hu⟩
  obtain ⟨n, hn, hdt, hu⟩ := hcar
  have hlt := getElem?_lt hn
  have hnu : ¬ Uses h n.data.v a := by
    intro hus
    have := uses_holds hu hus hd0
    simp only [pairs] at this
    omega
  have fin : ∀ h', setCdr p x h = (.ok Obj.none, h') → h'.strs = h.strs → (∀ b m, b ≠ a → h.nodes[b]? = some m → h'.nodes[b]? = some m) →
      (Holds h' x.v v → Holds h' n.data.v u → Holds h' (.list a) (.pair u v)) →
      ∃ h', setCdr p x h = (.ok Obj.none, h') ∧ Holds h' p.v (.pair u v) ∧ (∀ o d, Holds h o d → ¬ Uses h o a → Holds h' o d) ∧ ∀ o d, Holds h o d → ∃ d', ReadWith h a (.pair u v) o d' ∧ Holds h' o d' := by
    intro h' e1 e3 e4 hk
    have hpd := hk (holds_frame e4 e3 hx hnx) (holds_frame e4 e3 hu hnu)
    refine ⟨h', e1, by rw [hp]; exact hpd, fun o d ho hus => holds_frame e4 e3 ho hus, fun o d ho => holds_still e4 e3 hpd hd0 ho⟩
  have other : x.v.ty ≠ .list → x.v ≠ .nil → setCdr p x h = (.ok Obj.none, { h with nodes := (h.nodes ++ [(⟨x, none, true⟩ : Node)]).set a { n with next := some h.nodes.length } }) →
      ∃ h', setCdr p x h = (.ok Obj.none, h') ∧ Holds h' p.v (.pair u v) ∧ (∀ o d, Holds h o d → ¬ Uses h o a → Holds h' o d) ∧ ∀ o d, Holds h o d → ∃ d', ReadWith h a (.pair u v) o d' ∧ Holds h' o d' := by
    intro t1 t2 he
    refine fin _ he rfl ?_ fun k1 k2 => ?_
    · intro b m hb hm
      show ((h.nodes ++ [_]).set a _)[b]? = _
      rw [List.getElem?_set_ne (Ne.symm hb), List.getElem?_append_left (getElem?_lt hm)]; exact hm
    · refine .dot (n := { n with next := some h.nodes.length }) (m := ⟨x, none, true⟩) ?_ hdt rfl ?_ rfl rfl t1 t2 k2 k1
      · show ((h.nodes ++ [_]).set a _)[a]? = _
        rw [List.getElem?_set_self (by simp; omega)]
      · show ((h.nodes ++ [_]).set a _)[h.nodes.length]? = _
        rw [List.getElem?_set_ne (by omega)]; simp
  have hset : ∀ (h0 : Heap), a < h0.nodes.length → ∀ (nx : Option Addr), setNode a { n with next := nx } h0 = (.ok (), { h0 with nodes := h0.nodes.set a { n with next := nx } }) := by
    intro h0 hl nx; simp [setNode, hl]
  have hself : ∀ nx, (h.nodes.set a { n with next := nx })[a]? = some { n with next := nx } := by
    intro nx; rw [List.getElem?_set]; simp [hlt]
  have hrest : ∀ nx b m, b ≠ a → h.nodes[b]? = some m → (h.nodes.set a { n with next := nx })[b]? = some m := by
    intro nx b m hb hm; rw [List.getElem?_set_ne (Ne.symm hb)]; exact hm
  have run : ∀ y, x.v = y → y.ty ≠ .list → y ≠ .nil → setCdr p x h = (.ok Obj.none, { h with nodes := (h.nodes ++ [(⟨x, none, true⟩ : Node)]).set a { n with next := some h.nodes.length } }) := by
    intro y hy t1 t2
    simp only [setCdr, hp]
    rw [M.bind_ok (getNode_ok hn)]
    cases y with
    | list b => exact absurd rfl t1
    | nil => exact absurd rfl t2
    | _ =>
      simp only [hy]
      rw [M.bind_ok (show allocNode ⟨x, none, true⟩ h = (.ok h.nodes.length, { h with nodes := h.nodes ++ [⟨x, none, true⟩] }) from rfl),
        M.bind_ok (hset _ (by simp; omega) _)]
      rfl
  by_cases t1 : x.v.ty = .list
  · cases hv : x.v with
    | list b =>
      refine fin { h with nodes := h.nodes.set a { n with next := some b } } ?_ rfl (hrest _) fun k1 k2 => ?_
      · simp only [setCdr, hp]
        rw [M.bind_ok (getNode_ok hn)]
        simp only [hv]
        rw [M.bind_ok (hset _ hlt _)]
        rfl
      · rw [hv] at k1
        exact .next (hself _) hdt rfl k2 k1
    | _ => rw [hv] at t1; cases t1
  · by_cases t2 : x.v = .nil
    · refine fin { h with nodes := h.nodes.set a { n with next := none } } ?_ rfl (hrest _) fun k1 k2 => ?_
      · simp only [setCdr, hp]
        rw [M.bind_ok (getNode_ok hn)]
        simp only [t2]
        rw [M.bind_ok (hset _ hlt _)]
        rfl
      · rw [t2] at k1
        cases k1
        exact .last (hself _) hdt rfl k2
    · exact other t1 t2 (run _ rfl t1 t2)

/-- **C151** `(set-car! p x)` and `(set-cdr! p x)` where `x` contains the pair: it succeeds, and afterwards `p` holds no datum (it is circular). -/
theorem c151_circular_partial {h : Heap} {p x : Obj} {a : Addr} {u w v : Ref.Val} (hp : p.v = .list a) (hd : Holds h p.v (.pair u w)) (hx : Holds h x.v v) (hux : Uses h x.v a) :
    (∃ h', setCar p x h = (.ok Obj.none, h') ∧ ∀ d, ¬ Holds h' p.v d) ∧ ∃ h', setCdr p x h = (.ok Obj.none, h') ∧ ∀ d, ¬ Holds h' p.v d := by
  rw [hp] at hd
  have hcar : ∃ n, h.nodes[a]? = some n ∧ n.dotted = false := by
    cases hd with
    | last hn hdt hxn hu => exact ⟨_, hn, hdt⟩
    | next hn hdt hxn hu hw => exact ⟨_, hn, hdt⟩
    | dot hn hdt hxn hm hf hnn h1 h2 hu hw => exact ⟨_, hn, hdt⟩
  obtain ⟨n, hn, hdt⟩ := hcar
  have hlt := getElem?_lt hn
  constructor
  · refine ⟨{ h with nodes := h.nodes.set a { n with data := x } }, ?_, ?_⟩
    · simp only [setCar, hp]
      rw [M.bind_ok (getNode_ok hn)]
      simp [M.bind_app, setNode, hlt]
    · intro d hh
      rw [hp] at hh
      have hself : (h.nodes.set a { n with data := x })[a]? = some { n with data := x } := by rw [List.getElem?_set]; simp [hlt]
      have hus := uses_frame (h' := { h with nodes := h.nodes.set a { n with data := x } }) (a := a)
        (fun b m hb hm => by show (h.nodes.set a _)[b]? = _; rw [List.getElem?_set_ne (Ne.symm hb)]; exact hm) hux rfl
      have hh0 := hh
      cases hh with
      | last k _ _ hu => rw [hself] at k; cases k; have := uses_holds hu hus hh0; simp only [pairs] at this; omega
      | next k _ _ hu _ => rw [hself] at k; cases k; have := uses_holds hu hus hh0; simp only [pairs] at this; omega
      | dot k _ _ _ _ _ _ _ hu _ => rw [hself] at k; cases k; have := uses_holds hu hus hh0; simp only [pairs] at this; omega
  · cases hv : x.v with
    | list b =>
      refine ⟨{ h with nodes := h.nodes.set a { n with next := some b } }, ?_, ?_⟩
      · simp only [setCdr, hp]
        rw [M.bind_ok (getNode_ok hn)]
        simp only [hv]
        rw [M.bind_ok (show setNode a { n with next := some b } h = (.ok (), { h with nodes := h.nodes.set a { n with next := some b } }) by simp [setNode, hlt])]
        rfl
      · intro d hh
        rw [hp] at hh
        have hself : (h.nodes.set a { n with next := some b })[a]? = some { n with next := some b } := by rw [List.getElem?_set]; simp [hlt]
        have hrest : ∀ c m, c ≠ a → h.nodes[c]? = some m → (h.nodes.set a { n with next := some b })[c]? = some m := by
          intro c m hc hm; rw [List.getElem?_set_ne (Ne.symm hc)]; exact hm
        have hus := uses_frame (h' := { h with nodes := h.nodes.set a { n with next := some b } }) (a := a) hrest hux rfl
        rw [hv] at hus hx
        have hbm : ∃ m, (h.nodes.set a { n with next := some b })[b]? = some m ∧ m.dotted = false := by
          by_cases e : b = a
          · subst e; exact ⟨_, hself, hdt⟩
          · cases hx with
            | last k1 k2 _ _ => exact ⟨_, hrest _ _ e k1, k2⟩
            | next k1 k2 _ _ _ => exact ⟨_, hrest _ _ e k1, k2⟩
            | dot k1 k2 _ _ _ _ _ _ _ _ => exact ⟨_, hrest _ _ e k1, k2⟩
        obtain ⟨m, hm, hmd⟩ := hbm
        have hh0 := hh
        cases hh with
        | last k _ kx _ => rw [hself] at k; cases k; cases kx
        | next k _ kx _ kw => rw [hself] at k; cases k; cases kx; have := uses_holds kw hus hh0; simp only [pairs] at this; omega
        | dot k _ kx km kf _ _ _ _ _ => rw [hself] at k; cases k; cases kx; rw [hm] at km; cases km; rw [hmd] at kf; cases kf
    | _ => rw [hv] at hux; cases hux

/-- A heap with the list `(1 2)` at address 0, and one that shares its tail, `(3 2)`. -/
def Mem.setHeap : Heap :=
  { nodes := [⟨⟨0, .num 1⟩, some 1, false⟩, ⟨⟨1, .num 2⟩, none, false⟩, ⟨⟨2, .num 3⟩, some 1, false⟩], vecs := [], strs := [], nextId := 3 }

/-- The hypotheses are met: `(set-cdr! p q)` with `p` the list `(1 2)` and `q` the list `(3 2)`, which shares its tail, and `(set-car! q p)`. -/
example : Holds Mem.setHeap (.list 0) (.pair (.num 1) (.pair (.num 2) .nil)) ∧ Holds Mem.setHeap (.list 2) (.pair (.num 3) (.pair (.num 2) .nil)) ∧
    ¬ Uses Mem.setHeap (.list 2) 0 ∧ ¬ Uses Mem.setHeap (.list 0) 2 := by
  have h2 : Holds Mem.setHeap (.list 1) (.pair (.num 2) .nil) := .last (n := ⟨⟨1, .num 2⟩, none, false⟩) rfl rfl rfl (.num 2 (by decide))
  have f1 : ∀ b, b ≠ 1 → ¬ Uses Mem.setHeap (.list 1) b := by
    intro b hb k
    cases k with
    | here => exact hb rfl
    | car hn k => cases hn; cases k
    | cdr hn hx k => cases hn; cases hx
  refine ⟨.next (n := ⟨⟨0, .num 1⟩, some 1, false⟩) rfl rfl rfl (.num 1 (by decide)) h2, .next (n := ⟨⟨2, .num 3⟩, some 1, false⟩) rfl rfl rfl (.num 3 (by decide)) h2, ?_, ?_⟩
  · intro k
    cases k with
    | car hn k => cases hn; cases k
    | cdr hn hx k => cases hn; cases hx; exact f1 _ (by decide) k
  · intro k
    cases k with
    | car hn k => cases hn; cases k
    | cdr hn hx k => cases hn; cases hx; exact f1 _ (by decide) k

/-- After `(set-car! (cdr p) 7)` the other list that shares the tail reads `(3 7)`. -/
example : ReadWith Mem.setHeap 1 (.pair (.num 7) .nil) (.list 2) (.pair (.num 3) (.pair (.num 7) .nil)) :=
  .next (n := ⟨⟨2, .num 3⟩, some 1, false⟩) (by decide) rfl rfl rfl (.apart (.num 3 (by decide)) (by intro k; cases k)) .here

/-- `(set-car! q q)` and `(set-cdr! q p)` where `q` is the tail of `p`. -/
example : Uses Mem.setHeap (.list 1) 1 ∧ Uses Mem.setHeap (.list 0) 1 := ⟨.here, .cdr (n := ⟨⟨0, .num 1⟩, some 1, false⟩) rfl rfl .here⟩

end Pscm
