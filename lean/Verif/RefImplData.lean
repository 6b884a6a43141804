import Verif.RefImplText
import Verif.StrLemmas
/-! # More builtins on characters, strings and numbers implement their specification -/
namespace Pscm.Ref
open Pscm.Ev hiding Name Form evalForm
variable {σ : Type} {P : Prims σ} {F : FArith} {W : World} {s : St σ}

theorem stdCall_data {x : Name} {ws : List V} {r : Res V} (h1 : listCall x ws = none) (h2 : moreCall x ws = dataCall x ws) (h3 : dataCall x ws = some r) :
    stdCall F x ws = some r := by
  unfold stdCall
  rw [h1, h2, h3]

/-! ## Characters -/

theorem impl_charMap (hP : HasStd P F) {x : Name} (hx : x ∈ stdNames) (ha : stdArity x = 1) {f : Nat → Nat} {f' : UInt8 → UInt8} (hs : stdAp x = charMap f)
    (h1 : ∀ w, listCall x [w] = none) (h2 : ∀ w, moreCall x [w] = dataCall x [w]) (h3 : ∀ c, dataCall x [.chr c] = some (.ok (.chr (f' c))))
    (h4 : ∀ w, (∀ c, w ≠ .chr c) → dataCall x [w] = some (.err .evalError)) (hf : ∀ c, UInt8.ofNat (f c.toNat) = f' c) : Impl P x := by
  refine impl_unary hP hx ha hs fun {W v w} k => ?_
  by_cases hc : ∃ c, v = .chr c
  · obtain ⟨c, rfl⟩ := hc
    cases k
    exact ⟨fun u hu => by cases hu; exact ⟨_, stdCall_data (h1 _) (h2 _) (h3 c), by rw [hf]; rfl⟩, fun he => by cases he⟩
  · refine ⟨fun u hu => ?_, fun _ => ⟨_, stdCall_data (h1 _) (h2 _) (h4 w (rel_not_chr k fun c e => hc ⟨c, e⟩))⟩⟩
    cases v <;> first | exact absurd ⟨_, rfl⟩ hc | cases hu

theorem impl_charIs (hP : HasStd P F) {x : Name} (hx : x ∈ stdNames) (ha : stdArity x = 1) {p : Nat → Bool} {p' : UInt8 → Bool} (hs : stdAp x = charIs p)
    (h1 : ∀ w, listCall x [w] = none) (h2 : ∀ w, moreCall x [w] = dataCall x [w]) (h3 : ∀ w, dataCall x [w] = charClassV p' [w])
    (hp : ∀ c, p c.toNat = p' c) : Impl P x := by
  refine impl_unary hP hx ha hs fun {W v w} k => ?_
  by_cases hc : ∃ c, v = .chr c
  · obtain ⟨c, rfl⟩ := hc
    cases k
    exact ⟨fun u hu => by cases hu; exact ⟨_, stdCall_data (h1 _) (h2 _) (h3 _), by rw [hp]; rfl⟩, fun he => by cases he⟩
  · have n := rel_not_chr k fun c e => hc ⟨c, e⟩
    have e : charClassV p' [w] = some (.err .evalError) := by
      cases w <;> first | rfl | exact absurd rfl (n _)
    refine ⟨fun u hu => ?_, fun _ => ⟨_, stdCall_data (h1 _) (h2 _) ((h3 w).trans e)⟩⟩
    cases v <;> first | exact absurd ⟨_, rfl⟩ hc | cases hu

theorem all_bytes {p : UInt8 → Prop} (h : ∀ n : Fin 256, p (UInt8.ofNat n.val)) (c : UInt8) : p c := by
  have := h ⟨c.toNat, c.toNat_lt⟩
  simpa using this

theorem upper_byte : ∀ c : UInt8, UInt8.ofNat (upper c.toNat) = toUpper c := all_bytes (by decide +kernel)
theorem lower_byte : ∀ c : UInt8, UInt8.ofNat (lower c.toNat) = toLower c := all_bytes (by decide +kernel)
theorem upper_code : ∀ c : UInt8, upper c.toNat = (toUpper c).toNat := all_bytes (by decide +kernel)

theorem impl_cases (hP : HasStd P F) : Impl P "char-upcase" ∧ Impl P "char-downcase" := by
  refine ⟨impl_charMap hP (by decide) (by decide) (f := upper) rfl (fun _ => rfl) (fun _ => rfl) (fun _ => rfl) (fun w n => ?_) upper_byte,
    impl_charMap hP (by decide) (by decide) (f := lower) rfl (fun _ => rfl) (fun _ => rfl) (fun _ => rfl) (fun w n => ?_) lower_byte⟩
  all_goals cases w <;> first | rfl | exact absurd rfl (n _)

theorem impl_classes (hP : HasStd P F) : Impl P "char-alphabetic?" ∧ Impl P "char-numeric?" ∧ Impl P "char-whitespace?" ∧ Impl P "char-upper-case?" ∧
    Impl P "char-lower-case?" := by
  refine ⟨impl_charIs hP (p := fun c => decide (65 ≤ c ∧ c ≤ 90 ∨ 97 ≤ c ∧ c ≤ 122)) (p' := isAlpha) (by decide) (by decide) (by rfl) (fun _ => rfl) (fun _ => rfl) (fun _ => rfl) (all_bytes (by decide +kernel)),
    impl_charIs hP (p := fun c => decide (48 ≤ c ∧ c ≤ 57)) (p' := isDigit) (by decide) (by decide) (by rfl) (fun _ => rfl) (fun _ => rfl) (fun _ => rfl) (all_bytes (by decide +kernel)),
    impl_charIs hP (p := fun c => decide (9 ≤ c ∧ c ≤ 13 ∨ c = 32)) (p' := isSpace) (by decide) (by decide) (by rfl) (fun _ => rfl) (fun _ => rfl) (fun _ => rfl) (all_bytes (by decide +kernel)),
    impl_charIs hP (p := fun c => decide (65 ≤ c ∧ c ≤ 90)) (p' := isUpper) (by decide) (by decide) (by rfl) (fun _ => rfl) (fun _ => rfl) (fun _ => rfl) (all_bytes (by decide +kernel)),
    impl_charIs hP (p := fun c => decide (97 ≤ c ∧ c ≤ 122)) (p' := isLower) (by decide) (by decide) (by rfl) (fun _ => rfl) (fun _ => rfl) (fun _ => rfl) (all_bytes (by decide +kernel))⟩

theorem impl_ciTest (hP : HasStd P F) {x : Name} (hx : x ∈ stdNames) (ha : stdArity x = 2) {r : Nat → Nat → Bool} {r' : UInt8 → UInt8 → Bool}
    (hs : stdAp x = charTest r) (h1 : ∀ a b, listCall x [a, b] = none) (h2 : ∀ a b, moreCall x [a, b] = dataCall x [a, b])
    (h3 : ∀ a b, dataCall x [a, b] = Ev.charCmp r' [a, b]) (hr : ∀ a b, r a.toNat b.toNat = r' a b) : Impl P x := by
  refine impl_binary hP hx ha hs fun {W v1 v2 w1 w2} k1 k2 => ?_
  have fin : ∀ {q}, Ev.charCmp r' [w1, w2] = some q → stdCall F x [w1, w2] = some q := fun h => stdCall_data (h1 _ _) (h2 _ _) ((h3 _ _).trans h)
  by_cases c1 : ∃ c, v1 = .chr c
  · obtain ⟨a, rfl⟩ := c1
    by_cases c2 : ∃ c, v2 = .chr c
    · obtain ⟨b, rfl⟩ := c2
      cases k1
      cases k2
      exact ⟨fun u hu => by cases hu; exact ⟨_, fin rfl, by rw [hr]; rfl⟩, fun he => by cases he⟩
    · have n2 := rel_not_chr k2 fun c e => c2 ⟨c, e⟩
      have e : Ev.charCmp r' [w1, w2] = some (.err .evalError) := by
        cases k1
        cases w2 <;> first | rfl | exact absurd rfl (n2 _)
      refine ⟨fun u hu => ?_, fun _ => ⟨_, fin e⟩⟩
      cases v2 <;> first | exact absurd ⟨_, rfl⟩ c2 | cases hu
  · have n1 := rel_not_chr k1 fun c e => c1 ⟨c, e⟩
    have e : Ev.charCmp r' [w1, w2] = some (.err .evalError) := by
      cases w1 <;> first | rfl | exact absurd rfl (n1 _)
    refine ⟨fun u hu => ?_, fun _ => ⟨_, fin e⟩⟩
    cases v1 <;> first | exact absurd ⟨_, rfl⟩ c1 | cases hu

theorem impl_ciTests (hP : HasStd P F) : Impl P "char-ci=?" ∧ Impl P "char-ci<?" ∧ Impl P "char-ci>?" ∧ Impl P "char-ci<=?" ∧ Impl P "char-ci>=?" := by
  refine ⟨impl_ciTest hP (r := fun a b => upper a = upper b) (r' := fun a b => decide (toUpper a = toUpper b)) (by decide) (by decide) (by rfl) (fun _ _ => rfl) (fun _ _ => rfl) (fun _ _ => rfl) fun a b => ?_,
    impl_ciTest hP (r := fun a b => upper a < upper b) (r' := fun a b => decide ((toUpper a).toNat < (toUpper b).toNat)) (by decide) (by decide) (by rfl) (fun _ _ => rfl) (fun _ _ => rfl) (fun _ _ => rfl) fun a b => ?_,
    impl_ciTest hP (r := fun a b => upper a > upper b) (r' := fun a b => decide ((toUpper a).toNat > (toUpper b).toNat)) (by decide) (by decide) (by rfl) (fun _ _ => rfl) (fun _ _ => rfl) (fun _ _ => rfl) fun a b => ?_,
    impl_ciTest hP (r := fun a b => upper a ≤ upper b) (r' := fun a b => decide ((toUpper a).toNat ≤ (toUpper b).toNat)) (by decide) (by decide) (by rfl) (fun _ _ => rfl) (fun _ _ => rfl) (fun _ _ => rfl) fun a b => ?_,
    impl_ciTest hP (r := fun a b => upper a ≥ upper b) (r' := fun a b => decide ((toUpper a).toNat ≥ (toUpper b).toNat)) (by decide) (by decide) (by rfl) (fun _ _ => rfl) (fun _ _ => rfl) (fun _ _ => rfl) fun a b => ?_⟩
  all_goals simp only [upper_code, UInt8.toNat_inj]

/-! ## The order of strings -/

/-- How the comparison of two strings ends. -/
def verdict (s t : List UInt8) : Ordering :=
  match strncmp (if s.length < t.length then s.length else t.length) s t with
  | .lt => .lt
  | .gt => .gt
  | .eq => compare s.length t.length

theorem verdict_cons (a b : UInt8) (s t : List UInt8) (h : a ≠ 0) :
    verdict (a :: s) (b :: t) = if a < b then .lt else if b < a then .gt else verdict s t := by
  unfold verdict
  have e : (if (a :: s).length < (b :: t).length then (a :: s).length else (b :: t).length) = (if s.length < t.length then s.length else t.length) + 1 := by
    simp only [List.length_cons]
    split <;> split <;> omega
  rw [e]
  simp only [strncmp]
  by_cases h1 : a < b
  · simp [h1]
  · by_cases h2 : b < a
    · simp [h1, h2]
    · simp only [h1, h2, h, if_false]
      split
      · rfl
      · rfl
      · simp only [List.length_cons, Nat.compare_eq_ite_lt, Nat.add_lt_add_iff_right]

theorem byte_lt {c d : Char} (hc : Byte c) (hd : Byte d) : UInt8.ofNat c.toNat < UInt8.ofNat d.toNat ↔ c < d := by
  rw [UInt8.lt_iff_toNat_lt, UInt8.toNat_ofNat', UInt8.toNat_ofNat', Nat.mod_eq_of_lt hc, Nat.mod_eq_of_lt hd]
  exact Iff.rfl

theorem byte_ne {c : Char} (hc : Byte c) (h0 : c ≠ '\x00') : UInt8.ofNat c.toNat ≠ 0 := by
  intro h
  have := congrArg UInt8.toNat h
  rw [UInt8.toNat_ofNat', Nat.mod_eq_of_lt hc] at this
  apply h0
  have h2 : c.toNat = 0 := this
  rw [← Char.ofNat_toNat c, h2]

theorem verdict_lt : ∀ (s t : List Char), (∀ c ∈ s, Byte c) → (∀ c ∈ t, Byte c) → (∀ c ∈ s, c ≠ '\x00') →
    verdict (s.map fun c => UInt8.ofNat c.toNat) (t.map fun c => UInt8.ofNat c.toNat) = if s < t then .lt else if t < s then .gt else .eq := by
  intro s
  induction s with
  | nil =>
    intro t _ _ _
    cases t with
    | nil => rfl
    | cons b t => simp [verdict, strncmp, Nat.compare_eq_ite_lt]
  | cons a s ih =>
    intro t hs ht h0
    cases t with
    | nil => simp [verdict, strncmp, Nat.compare_eq_ite_lt]
    | cons b t =>
      have ha := hs a (.head _)
      have hb := ht b (.head _)
      rw [List.map_cons, List.map_cons, verdict_cons _ _ _ _ (byte_ne ha (h0 a (.head _))), ih t (fun c hc => hs c (.tail _ hc)) (fun c hc => ht c (.tail _ hc)) (fun c hc => h0 c (.tail _ hc))]
      simp only [byte_lt ha hb, byte_lt hb ha, List.cons_lt_cons_iff]
      by_cases h1 : a < b
      · simp [h1]
      · by_cases h2 : b < a
        · have hn : ¬ a = b := fun e => by subst e; exact h1 h2
          simp [h1, h2, hn]
        · have he : a = b := Char.le_antisymm (Char.not_lt.1 h2) (Char.not_lt.1 h1)
          subst he
          simp [h1]

theorem impl_textTest (hP : HasStd P F) {x : Name} (hx : x ∈ stdNames) (ha : stdArity x = 2) {r : String → String → Bool} {lt gt : Bool} {eq : Nat → Nat → Bool}
    (hs : stdAp x = textTest r) (h1 : ∀ a b, listCall x [a, b] = none) (h2 : ∀ a b, moreCall x [a, b] = dataCall x [a, b])
    (h3 : ∀ a b, dataCall x [a, b] = textCmp lt gt eq [a, b])
    (hr : ∀ s t : String, r s t = match (if s < t then Ordering.lt else if t < s then .gt else .eq) with | .lt => lt | .gt => gt | .eq => eq 0 0)
    (he : ∀ m n, eq m n = match compare m n with | .lt => lt | .gt => gt | .eq => eq 0 0) : Impl P x := by
  refine impl_binary hP hx ha hs fun {W v1 v2 w1 w2} k1 k2 => ?_
  have fin : ∀ {q}, textCmp lt gt eq [w1, w2] = some q → stdCall F x [w1, w2] = some q := fun h => stdCall_data (h1 _ _) (h2 _ _) ((h3 _ _).trans h)
  by_cases c1 : ∃ c, v1 = .str c
  · obtain ⟨a, rfl⟩ := c1
    by_cases c2 : ∃ c, v2 = .str c
    · obtain ⟨b, rfl⟩ := c2
      cases k1
      cases k2
      simp only []
      by_cases hn : Fits a.toList ∧ Fits b.toList ∧ NoNul a ∧ NoNul b
      · rw [if_pos hn]
        refine ⟨fun u hu => ?_, fun h => by cases h⟩
        cases hu
        refine ⟨.bool (r a b), fin ?_, rfl⟩
        have hv := verdict_lt a.toList b.toList hn.1.1 hn.2.1.1 hn.2.2.1
        simp only [textCmp, hr, String.lt_iff, ← hv, verdict]
        show some (Res.ok (V.bool _)) = some (Res.ok (V.bool _))
        congr 3
        unfold bytesOf
        split
        · rename_i h; simp only [h]
        · rename_i h; simp only [h]
        · rename_i h; simp only [h]; rw [he]
      · rw [if_neg hn]
        exact ⟨fun u hu => (by cases hu), fun h => by cases h⟩
    · have n2 := rel_not_str k2 fun c e => c2 ⟨c, e⟩
      have e : textCmp lt gt eq [w1, w2] = some (.err .evalError) := by
        cases k1
        cases w2 <;> first | rfl | exact absurd rfl (n2 _)
      refine ⟨fun u hu => ?_, fun _ => ⟨_, fin e⟩⟩
      cases v2 <;> first | exact absurd ⟨_, rfl⟩ c2 | cases hu
  · have n1 := rel_not_str k1 fun c e => c1 ⟨c, e⟩
    have e : textCmp lt gt eq [w1, w2] = some (.err .evalError) := by
      cases w1 <;> first | rfl | exact absurd rfl (n1 _)
    refine ⟨fun u hu => ?_, fun _ => ⟨_, fin e⟩⟩
    cases v1 <;> first | exact absurd ⟨_, rfl⟩ c1 | cases hu

theorem string_asymm {s t : String} (h : s < t) : ¬ t < s := fun k => String.lt_irrefl s (String.lt_trans h k)

theorem impl_textTests (hP : HasStd P F) : Impl P "string<?" ∧ Impl P "string>?" ∧ Impl P "string<=?" ∧ Impl P "string>=?" := by
  refine ⟨impl_textTest hP (lt := true) (gt := false) (eq := fun a b => decide (a < b)) (by decide) (by decide) rfl (fun _ _ => rfl) (fun _ _ => rfl) (fun _ _ => rfl) (fun s t => ?_) fun m n => ?_,
    impl_textTest hP (lt := false) (gt := true) (eq := fun a b => decide (b < a)) (by decide) (by decide) rfl (fun _ _ => rfl) (fun _ _ => rfl) (fun _ _ => rfl) (fun s t => ?_) fun m n => ?_,
    impl_textTest hP (lt := true) (gt := false) (eq := fun a b => decide (a ≤ b)) (by decide) (by decide) rfl (fun _ _ => rfl) (fun _ _ => rfl) (fun _ _ => rfl) (fun s t => ?_) fun m n => ?_,
    impl_textTest hP (lt := false) (gt := true) (eq := fun a b => decide (b ≤ a)) (by decide) (by decide) rfl (fun _ _ => rfl) (fun _ _ => rfl) (fun _ _ => rfl) (fun s t => ?_) fun m n => ?_⟩
  all_goals first
    | (by_cases h : s < t
       · simp [h, string_asymm h]
       · by_cases h' : t < s <;> simp [h, h'])
    | (rw [Nat.compare_eq_ite_lt]
       by_cases h : m < n
       · simp [h]; try omega
       · by_cases h' : n < m
         · simp [h, h']; try omega
         · simp [h, h']; try omega)

/-! ## Numbers -/

theorem digits_text : ∀ (fuel n : Nat), 0 < n → n < 2 ^ fuel → ((digs 10 fuel n).map digitOut).map (fun b => Char.ofNat b.toNat) = Nat.toDigits 10 n := by
  have hd : ∀ k : Fin 10, Char.ofNat (digitOut k.val).toNat = Nat.digitChar k.val := by decide +kernel
  intro fuel
  induction fuel with
  | zero => intro n h1 h2; omega
  | succ fuel ih =>
    intro n h1 h2
    rw [Nat.toDigits_eq_if (by decide), digs, if_pos h1]
    have hm : Char.ofNat (digitOut (n % 10)).toNat = Nat.digitChar (n % 10) := hd ⟨n % 10, Nat.mod_lt _ (by decide)⟩
    by_cases h : n < 10
    · have h0 : n / 10 = 0 := by omega
      have hz : digs 10 fuel 0 = [] := by cases fuel <;> rfl
      rw [if_pos h, h0, hz]
      simp only [List.nil_append, List.map_cons, List.map_nil, hm]
      rw [Nat.mod_eq_of_lt h]
    · rw [if_neg h]
      simp only [List.map_append, List.map_cons, List.map_nil, hm]
      rw [ih (n / 10) (by omega) (by omega)]

theorem number_text {n : Int} (h : Word n ∧ Word (-n)) :
    dataCall "number->string" [.num n] = some (.ok (.str (toString n))) := by
  have h1 := h.1
  have h2 := h.2
  unfold Word at h1 h2
  show (match intToStringRadix n 10 with
    | .ok bs => some (Res.ok (V.str (String.ofList (bs.map fun (b : UInt8) => Char.ofNat b.toNat))))
    | .ub => some .ub
    | _ => none) = _
  rw [intToStringRadix_ok (by decide) h.1 (by omega)]
  simp only []
  congr 3
  by_cases h0 : n = 0
  · subst h0; decide +kernel
  · rw [if_neg h0]
    have hp : 0 < n.natAbs := by omega
    have hb : n.natAbs < 2 ^ 64 := by omega
    rw [List.map_append, digits_text 64 _ hp hb, Int.toString_eq_repr, Int.repr_eq_if]
    by_cases hn : 0 ≤ n
    · have : ¬ n < 0 := by omega
      have e : n.toNat = n.natAbs := by omega
      simp [this, hn, Nat.repr_eq_ofList_toDigits, e]
    · have hn' : n < 0 := by omega
      have e : (-n).toNat = n.natAbs := by omega
      simp only [hn', hn, if_true, if_false, e, Nat.repr_eq_ofList_toDigits]
      rw [String.ofList_append]
      rfl

theorem impl_numberString (hP : HasStd P F) : Impl P "number->string" := by
  refine impl_list hP (by decide) (by decide) fun {W vs ws} hvs => ?_
  match vs, ws, hvs with
  | [], _, .nil => exact ⟨fun u hu => (by cases hu), fun _ => ⟨_, stdCall_data (x := "number->string") rfl rfl rfl⟩⟩
  | [v], _, .cons (w := w) k .nil =>
    by_cases c : ∃ n, v = .num n
    · obtain ⟨n, rfl⟩ := c
      cases k
      show (∀ u, (if Word n ∧ Word (-n) then Ret.val (Val.str (toString n)) else .unknown) = .val u → _) ∧
        ((if Word n ∧ Word (-n) then Ret.val (Val.str (toString n)) else .unknown) = .error → _)
      by_cases hn : Word n ∧ Word (-n)
      · rw [if_pos hn]
        exact ⟨fun u hu => by cases hu; exact ⟨_, stdCall_data rfl rfl (number_text hn), rfl⟩, fun he => by cases he⟩
      · rw [if_neg hn]
        exact ⟨fun u hu => (by cases hu), fun he => by cases he⟩
    · refine ⟨fun u hu => ?_, fun _ => ⟨.evalError, stdCall_data rfl rfl ?_⟩⟩
      · cases v <;> first | exact absurd ⟨_, rfl⟩ c | cases hu
      · have := numOf_other k fun n h => c ⟨n, h⟩
        cases w <;> first | rfl | cases this
  | a :: b :: l, _, _ =>
    have e : stdAp "number->string" (a :: b :: l) = .unknown := by cases a <;> rfl
    rw [e]
    exact ⟨fun u hu => (by cases hu), fun he => by cases he⟩

theorem fold_nums {x : Name} {ns : List Int} {W : World} {vs : List Val} {ws : List V} (hvs : VRels Registered W vs ws) (hn : ints vs = some ns)
    (h1 : listCall x ws = none) (h2 : moreCall x ws = none) : stdCall F x ws = numCall F x (ns.map .int) := by
  unfold stdCall
  rw [h1, h2, ints_rel hvs hn, numsOf_nums]
  rfl

theorem foldl_cast (ns : List Int) (g : Nat) : ns.foldl (fun g n => Nat.gcd g n.natAbs) (Nat.gcd 0 g) = ns.foldl (fun g n => Nat.gcd g n.natAbs) g := by
  rw [Nat.gcd_zero_left]

theorem multiples_ok : ∀ (ns : List Int) (acc : Nat) (u : Val), Word acc → multiples acc ns = .val u →
    u = .num (ns.foldl (fun g x => Nat.lcm g x.natAbs) acc : Nat) ∧ ∀ k ≤ ns.length, InI64 (((ns.take k).foldl (fun g x => Nat.lcm g x.natAbs) acc : Nat) : Int) := by
  intro ns
  induction ns with
  | nil =>
    intro acc u hw h
    cases h
    exact ⟨rfl, fun k hk => by rw [List.take_nil]; exact hw⟩
  | cons n ns ih =>
    intro acc u hw h
    unfold multiples at h
    split at h
    · rename_i hl
      obtain ⟨h1, h2⟩ := ih _ u hl h
      refine ⟨h1, fun k hk => ?_⟩
      cases k with
      | zero => exact hw
      | succ k => exact h2 k (by simpa using hk)
    · cases h

theorem multiples_noErr : ∀ (ns : List Int) (acc : Nat), multiples acc ns ≠ .error := by
  intro ns
  induction ns with
  | nil => intro acc h; cases h
  | cons n ns ih =>
    intro acc
    unfold multiples
    split
    · exact ih _
    · intro h; cases h

theorem word_min {n : Int} (h : Word n ∧ Word (-n)) : InI64 n ∧ n ≠ -(2 : Int) ^ 63 := by
  refine ⟨h.1, ?_⟩
  have := h.2
  unfold Word at this
  omega

theorem impl_gcd (hP : HasStd P F) : Impl P "gcd" := by
  refine impl_list hP (by decide) (by decide) fun {W vs ws} hvs => ?_
  show (∀ u, onInts _ vs = .val u → _) ∧ (onInts _ vs = .error → _)
  unfold onInts
  cases hn : ints vs with
  | none => exact ⟨fun u h => (by cases h), fun h => (by cases h)⟩
  | some ns =>
    have hc : stdCall F "gcd" ws = numRes (gcdP (ns.map .int)) := by
      have hw := ints_rel hvs hn
      rw [fold_nums hvs hn]
      · unfold numCall; split <;> simp_all
      · rw [hw]; unfold listCall; split <;> simp_all
      · rw [hw]
        match ns with
        | [] => rfl
        | [_] => rfl
        | _ :: _ :: _ => rfl
    simp only []
    by_cases hb : ∀ n ∈ ns, Word n ∧ Word (-n)
    · rw [if_pos hb, hc]
      refine ⟨fun u hu => ?_, fun he => by cases he⟩
      cases hu
      cases ns with
      | nil => exact ⟨_, rfl, rfl⟩
      | cons n ns =>
        have hx := word_min (hb n (.head _))
        have := gcdArgs_ok n.natAbs ns (natAbs_inI64 hx.1 hx.2).1 fun y hy => word_min (hb y (.tail _ hy))
        refine ⟨.num _, ?_, rfl⟩
        simp only [List.map_cons, gcdP, abs64_ok hx.1 hx.2, Res.bind_ok, this, List.foldl_cons, Nat.gcd_zero_left]
        rfl
    · rw [if_neg hb]
      exact ⟨fun u h => (by cases h), fun h => (by cases h)⟩

theorem impl_lcm (hP : HasStd P F) : Impl P "lcm" := by
  refine impl_list hP (by decide) (by decide) fun {W vs ws} hvs => ?_
  show (∀ u, onInts _ vs = .val u → _) ∧ (onInts _ vs = .error → _)
  unfold onInts
  cases hn : ints vs with
  | none => exact ⟨fun u h => (by cases h), fun h => (by cases h)⟩
  | some ns =>
    have hc : stdCall F "lcm" ws = numRes (lcmP (ns.map .int)) := by
      have hw := ints_rel hvs hn
      rw [fold_nums hvs hn]
      · unfold numCall; split <;> simp_all
      · rw [hw]; unfold listCall; split <;> simp_all
      · rw [hw]
        match ns with
        | [] => rfl
        | [_] => rfl
        | _ :: _ :: _ => rfl
    simp only []
    by_cases hb : ∀ n ∈ ns, Word n ∧ Word (-n)
    · rw [if_pos hb, hc]
      refine ⟨fun u hu => ?_, fun he => absurd he (multiples_noErr _ _)⟩
      obtain ⟨rfl, hp⟩ := multiples_ok ns 1 u (by decide) hu
      cases ns with
      | nil => exact ⟨_, rfl, rfl⟩
      | cons n ns =>
        have hx := word_min (hb n (.head _))
        have := lcmArgs_ok n.natAbs ns (fun y hy => word_min (hb y (.tail _ hy))) (by
          intro k hk
          have := hp (k + 1) (by simpa using hk)
          simpa using this)
        refine ⟨.num _, ?_, rfl⟩
        simp only [List.map_cons, lcmP, abs64_ok hx.1 hx.2, Res.bind_ok, this, List.foldl_cons, Nat.lcm_one_left]
        rfl
    · rw [if_neg hb]
      exact ⟨fun u h => (by cases h), fun h => (by cases h)⟩

theorem impl_acons (hP : HasStd P F) : Impl P "acons" := by
  refine impl_ternary hP (by decide) (by decide) rfl fun {W v1 v2 v3 w1 w2 w3} k1 k2 k3 => ?_
  refine ⟨fun u hu => ?_, fun he => by cases he⟩
  cases hu
  exact ⟨_, stdCall_data (x := "acons") rfl rfl rfl, _, _, rfl, ⟨_, _, rfl, k1, k2⟩, k3⟩

end Pscm.Ref
