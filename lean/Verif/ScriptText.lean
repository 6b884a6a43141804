import Verif.ScriptSpec
import Verif.RefProps
import Verif.DataProps2
/-! # Programs as texts: what is read and what is printed -/
namespace Pscm.Scr
open Pscm.Rd Pscm.Scr.Spec
open Pscm.Ref (Same)
open Pscm.Ev (V)

/-! ## Bytes and characters -/

theorem char_toUInt8 {c : Char} (h : c.toNat < 256) : c.toNat.toUInt8.toNat = c.toNat := by
  simp [Nat.toUInt8, UInt8.toNat_ofNat', Nat.mod_eq_of_lt h]

theorem bytes_eq {s : String} {b : Bytes} (h : bytes s = some b) : (∀ c ∈ s.toList, c.toNat < 256) ∧ b = s.toList.map fun c => c.toNat.toUInt8 := by
  unfold bytes at h
  split at h
  · rename_i hc
    exact ⟨by simpa using hc, (Option.some.inj h).symm⟩
  · cases h

theorem bytes_of {s : String} (h : ∀ c ∈ s.toList, c.toNat < 256) : bytes s = some (s.toList.map fun c => c.toNat.toUInt8) := by
  unfold bytes
  rw [if_pos (by simpa using h)]

theorem bytes_toNat {s : String} {b : Bytes} (h : bytes s = some b) : b.map UInt8.toNat = s.toList.map Char.toNat := by
  obtain ⟨h1, rfl⟩ := bytes_eq h
  rw [List.map_map]
  apply List.map_congr_left
  intro c hc
  exact char_toUInt8 (h1 c hc)

theorem chars_bytes {s : String} {b : Bytes} (h : bytes s = some b) : chars b = s := by
  obtain ⟨h1, rfl⟩ := bytes_eq h
  unfold chars
  rw [List.map_map]
  have : s.toList.map ((fun c : UInt8 => Char.ofNat c.toNat) ∘ fun c => c.toNat.toUInt8) = s.toList.map id := by
    apply List.map_congr_left
    intro c hc
    simp only [Function.comp, char_toUInt8 (h1 c hc), Char.ofNat_toNat, id]
  rw [this, List.map_id, String.ofList_toList]

/-! ## Printing -/

theorem escaped_one : ∀ c : UInt8, Escaped c.toNat (escChar c) := by
  intro c
  unfold escChar
  simp only [beq_iff_eq, Bool.and_eq_true, decide_eq_true_eq]
  have e1 : asc "\\\\" = [92, 92] := by decide +kernel
  have e2 : asc "\\\"" = [92, 34] := by decide +kernel
  have e3 : asc "\\n" = [92, 110] := by decide +kernel
  have e4 : asc "\\t" = [92, 116] := by decide +kernel
  have e5 : asc "\\r" = [92, 114] := by decide +kernel
  repeat' split
  · rename_i h; subst h; rw [← e1]; exact .slash
  · rename_i h; subst h; rw [← e2]; exact .mark
  · rename_i h; subst h; rw [← e3]; exact .newline
  · rename_i h; subst h; rw [← e4]; exact .tab
  · rename_i h; subst h; rw [← e5]; exact .return
  · rename_i h1 h2 _ _ _ h
    exact .plain h.1 h.2 h2 h1
  · rename_i h1 h2 h3 h4 h5 h6
    have key : ∀ c : UInt8, 48 + c / 64 = (48 + c.toNat / 64).toUInt8 ∧ 48 + c / 8 % 8 = (48 + c.toNat / 8 % 8).toUInt8 ∧ 48 + c % 8 = (48 + c.toNat % 8).toUInt8 := by
      decide +kernel
    obtain ⟨k1, k2, k3⟩ := key c
    rw [k1, k2, k3]
    have hlt : c.toNat < 256 := c.toNat_lt
    have n3 : c.toNat ≠ 10 := fun h => h3 (UInt8.toNat_inj.1 h)
    have n4 : c.toNat ≠ 9 := fun h => h4 (UInt8.toNat_inj.1 h)
    have n5 : c.toNat ≠ 13 := fun h => h5 (UInt8.toNat_inj.1 h)
    have n6 : ¬ (32 ≤ c.toNat ∧ c.toNat < 127) := fun h => h6 ⟨UInt8.le_iff_toNat_le.2 h.1, UInt8.lt_iff_toNat_lt.2 h.2⟩
    exact .octal (by omega) n3 n4 n5 (by omega) (by omega) (by omega) (by omega)

theorem escaped_all {cs : List Char} (h : ∀ c ∈ cs, c.toNat < 256) : EscapedAll cs ((cs.map fun c => c.toNat.toUInt8).flatMap escChar) := by
  induction cs with
  | nil => exact .nil
  | cons c cs ih =>
    simp only [List.map_cons, List.flatMap_cons]
    refine .cons ?_ (ih fun x hx => h x (.tail _ hx))
    have := escaped_one c.toNat.toUInt8
    rwa [char_toUInt8 (h c (.head _))] at this

theorem chr_ext (c : UInt8) : Ext .datum (.chr c) (charText true c) := by
  unfold charText
  simp only [if_true, beq_iff_eq]
  repeat' split
  · rename_i h; subst h; exact .space
  · rename_i h; subst h; exact .newline
  · rename_i h; subst h; exact .tab
  · rename_i h1 h2 h3
    exact .chr (by simp [h1, h2, h3])

theorem name_bytes {x : String} (h : ∀ c ∈ x.toList, 0 < c.toNat ∧ c.toNat < 256) : ∃ b, bytes x = some b ∧ (0 : UInt8) ∉ b := by
  refine ⟨_, bytes_of fun c hc => (h c hc).2, fun hm => ?_⟩
  obtain ⟨c, hc, e⟩ := List.mem_map.1 hm
  have h1 := char_toUInt8 (h c hc).2
  rw [e] at h1
  have := (h c hc).1
  rw [← h1] at this
  exact absurd this (by decide)

theorem sym_ext {F : FloIO} {x : String} (h : Printable .datum (.sym x)) : ∃ b, bytes x = some b ∧ (0 : UInt8) ∉ b ∧ ∀ c, Ext .datum (.sym x) (pr F .datum true c (.sym b)) := by
  obtain ⟨h1, h2⟩ := h
  obtain ⟨b, hb, h0⟩ := name_bytes h1
  refine ⟨b, hb, h0, fun c => ?_⟩
  have e : pr F .datum true c (.sym b) = symText b := rfl
  rw [e]
  have : symText b = b := by
    unfold symText
    rw [if_neg, cstr_self h0]
    intro h58
    obtain ⟨h3, rfl⟩ := bytes_eq hb
    cases hx : x.toList with
    | nil => rw [hx] at h58; exact absurd h58 (by decide)
    | cons c cs =>
      rw [hx] at h58 h2 h3
      have h58 : c.toNat.toUInt8 = 58 := by simpa [cur] using h58
      have h4 := char_toUInt8 (h3 c (.head _))
      rw [h58] at h4
      apply h2
      have : c = ':' := Char.ext (UInt32.toNat_inj.1 (show c.toNat = ':'.toNat from h4.symm))
      rw [this]; rfl
  rw [this]
  exact .sym (bytes_toNat hb)

theorem sym_of_bytes {x : String} {b : Bytes} (h : bytes x = some b) {name : String} (e : b = asc name) (hn : chars (asc name) = name) : x = name := by
  rw [← chars_bytes h, e, hn]

/-- The head of a list of data, as the printer sees it. -/
theorem head_special {a : Ref.Val} {a' : V} {x : D} (hp : Printable .datum a) (hs : Same a a') (hx : toD a' = some x) (hh : headOf x ≠ .none) :
    ∃ name b, a = .sym name ∧ x = .sym b ∧ ((headOf x = .quasi ∧ name = "quasiquote") ∨ (headOf x = .quote ∧ name = "quote") ∨
      (headOf x = .unq ∧ name = "unquote") ∨ (headOf x = .splice ∧ name = "unquote-splicing")) ∧ b = asc name := by
  cases a with
  | sym name =>
    cases hs
    obtain ⟨b, hb, h0⟩ := name_bytes hp.1
    simp only [toD, hb, Option.map_some, Option.some.injEq] at hx
    subst hx
    refine ⟨name, b, rfl, rfl, ?_⟩
    have n1 : chars (asc "quasiquote") = "quasiquote" := by decide +kernel
    have n2 : chars (asc "quote") = "quote" := by decide +kernel
    have n3 : chars (asc "unquote") = "unquote" := by decide +kernel
    have n4 : chars (asc "unquote-splicing") = "unquote-splicing" := by decide +kernel
    unfold headOf at hh ⊢
    simp only [cstr_self h0] at hh ⊢
    repeat' split
    · rename_i h; exact ⟨.inl ⟨rfl, sym_of_bytes hb h n1⟩, by rw [h, sym_of_bytes hb h n1]⟩
    · rename_i h; exact ⟨.inr (.inl ⟨rfl, sym_of_bytes hb h n2⟩), by rw [h, sym_of_bytes hb h n2]⟩
    · rename_i h; exact ⟨.inr (.inr (.inl ⟨rfl, sym_of_bytes hb h n3⟩)), by rw [h, sym_of_bytes hb h n3]⟩
    · rename_i h; exact ⟨.inr (.inr (.inr ⟨rfl, sym_of_bytes hb h n4⟩)), by rw [h, sym_of_bytes hb h n4]⟩
    · rename_i h1 h2 h3 h4
      rw [if_neg h1, if_neg h2, if_neg h3, if_neg h4] at hh
      exact absurd rfl hh
  | str s =>
    cases hs
    simp only [toD, bytes_of hp, Option.map_some, Option.some.injEq] at hx
    subst hx
    exact absurd rfl hh
  | pair a d =>
    obtain ⟨a', d', rfl, _, _⟩ := hs
    simp only [toD] at hx
    split at hx
    · cases hx; exact absurd rfl hh
    · cases hx
  | nil => cases hs; cases hx; exact absurd rfl hh
  | bool b => cases hs; cases hx; exact absurd rfl hh
  | num n => cases hs; cases hx; exact absurd rfl hh
  | chr n => cases hs; cases hx; exact absurd rfl hh
  | _ => exact absurd hp id

/-- Rest of a list that is not a list itself. -/
theorem rest_atom {F : FloIO} {v : Ref.Val} {w : V} (h1 : v ≠ .nil) (h2 : ∀ a d, v ≠ .pair a d) {d : D} (hs : Same v w) (hd : toD w = some d) (hE : ∀ c, Ext .datum v (pr F .datum true c d)) (c : Ctx) :
    Ext .rest v (pr F .tail true c (asTail d)) := by
  have : asTail d = .dot d ∧ properPair d = false := by
    cases v with
    | nil => exact absurd rfl h1
    | pair a d => exact absurd rfl (h2 a d)
    | str s =>
      cases hs
      simp only [toD] at hd
      cases hb : bytes s with
      | none => rw [hb] at hd; cases hd
      | some b => rw [hb] at hd; cases hd; exact ⟨rfl, rfl⟩
    | sym s =>
      cases hs
      simp only [toD] at hd
      cases hb : bytes s with
      | none => rw [hb] at hd; cases hd
      | some b => rw [hb] at hd; cases hd; exact ⟨rfl, rfl⟩
    | bool b => cases hs; cases hd; exact ⟨rfl, rfl⟩
    | num b => cases hs; cases hd; exact ⟨rfl, rfl⟩
    | chr b => cases hs; cases hd; exact ⟨rfl, rfl⟩
    | unspecified => cases hs; cases hd
    | undefined => exact absurd hs id
    | unassigned => exact absurd hs id
    | prim x => obtain ⟨a, rfl⟩ := hs; cases hd
    | clo ps rest body ρ => obtain ⟨e, rfl⟩ := hs; cases hd
  rw [this.1]
  have e : pr F .tail true c (.dot d) = asc " . " ++ pr F .datum true c d := by
    simp [pr, this.2]
  rw [e]
  exact .dotted h1 h2 (hE c)

theorem rest_one {v : Ref.Val} {u : Bytes} (h : Ext .rest (.pair v .nil) u) : ∃ s, u = 32 :: s ∧ Ext .datum v s := by
  cases h with
  | next h1 h2 =>
    cases h2 with
    | last => exact ⟨_, by rw [List.append_nil], h1⟩
    | dotted h _ _ => exact absurd rfl h
  | dotted _ h _ => exact absurd rfl (h _ _)

/-- What is printed for a value made of data is an external representation of it. -/
theorem print_ext (F : FloIO) {v : Ref.Val} : ∀ {w : V}, Same v w →
    (Printable .datum v → ∃ d, toD w = some d ∧ ∀ c, Ext .datum v (pr F .datum true c d)) ∧
    (Printable .rest v → ∃ d, toD w = some d ∧ ∀ c, Ext .rest v (pr F .tail true c (asTail d))) := by
  have atom : ∀ {v : Ref.Val} {w : V}, Same v w → v ≠ .nil → (∀ a d, v ≠ .pair a d) → Printable .rest v → (∃ d, toD w = some d ∧ ∀ c, Ext .datum v (pr F .datum true c d)) →
      ∃ d, toD w = some d ∧ ∀ c, Ext .rest v (pr F .tail true c (asTail d)) := by
    rintro v w hs h1 h2 _ ⟨d, hd, hE⟩
    exact ⟨d, hd, rest_atom h1 h2 hs hd hE⟩
  induction v with
  | nil => rintro w rfl; exact ⟨fun _ => ⟨.nil, rfl, fun _ => .nil⟩, fun _ => ⟨.nil, rfl, fun _ => .last⟩⟩
  | bool b =>
    intro w hs
    have : ∃ d, toD w = some d ∧ ∀ c, Ext .datum (.bool b) (pr F .datum true c d) := by
      cases hs
      refine ⟨_, rfl, fun c => ?_⟩
      cases b
      · exact .false
      · exact .true
    exact ⟨fun _ => this, fun h => atom hs (by simp) (by simp) h this⟩
  | num n =>
    intro w hs
    have : ∃ d, toD w = some d ∧ ∀ c, Ext .datum (.num n) (pr F .datum true c d) := by
      cases hs
      exact ⟨_, rfl, fun c => .num (Pscm.printLld_numeral n)⟩
    exact ⟨fun _ => this, fun h => atom hs (by simp) (by simp) h this⟩
  | chr n =>
    intro w hs
    have : ∃ d, toD w = some d ∧ ∀ c, Ext .datum (.chr n) (pr F .datum true c d) := by
      cases hs
      exact ⟨_, rfl, fun c => chr_ext n⟩
    exact ⟨fun _ => this, fun h => atom hs (by simp) (by simp) h this⟩
  | str s =>
    intro w hs
    have : (∀ c ∈ s.toList, c.toNat < 256) → ∃ d, toD w = some d ∧ ∀ c, Ext .datum (.str s) (pr F .datum true c d) := by
      cases hs
      intro h
      refine ⟨.str (s.toList.map fun c => c.toNat.toUInt8), by simp only [toD, bytes_of h, Option.map_some], fun c => ?_⟩
      have e : pr F .datum true c (.str (s.toList.map fun c => c.toNat.toUInt8)) = 34 :: ((s.toList.map fun c => c.toNat.toUInt8).flatMap escChar ++ [34]) := rfl
      rw [e]
      exact .str (escaped_all h)
    exact ⟨fun h => this h, fun h => atom hs (by simp) (by simp) h (this h)⟩
  | sym x =>
    intro w hs
    have : Printable .datum (.sym x) → ∃ d, toD w = some d ∧ ∀ c, Ext .datum (.sym x) (pr F .datum true c d) := by
      intro h
      obtain ⟨b, hb, _, hE⟩ := sym_ext (F := F) h
      cases hs
      exact ⟨.sym b, by simp only [toD, hb, Option.map_some], hE⟩
    exact ⟨fun h => this h, fun h => atom hs (by simp) (by simp) h (this h)⟩
  | pair a d iha ihd =>
    rintro w ⟨a', d', rfl, ha, hd⟩
    constructor
    · rintro ⟨pa, pd, psp⟩
      obtain ⟨xa, ea, Ea⟩ := (iha ha).1 pa
      obtain ⟨xd, ed, Ed⟩ := (ihd hd).2 pd
      refine ⟨.pair xa (asTail xd), by simp only [toD, ea, ed], fun c => ?_⟩
      by_cases hh : headOf xa = .none
      · have e : pr F .datum true c (.pair xa (asTail xd)) = 40 :: (pr F .datum true c xa ++ pr F .tail true c (asTail xd) ++ [41]) := by
          simp only [pr, hh]
        rw [e]
        exact .list (Ea c) (Ed c)
      · obtain ⟨name, b, rfl, rfl, hn, rfl⟩ := head_special pa ha ea hh
        obtain ⟨v, rfl⟩ := psp (by
          rcases hn with ⟨_, rfl⟩ | ⟨_, rfl⟩ | ⟨_, rfl⟩ | ⟨_, rfl⟩
          · exact .inr (.inl rfl)
          · exact .inl rfl
          · exact .inr (.inr (.inl rfl))
          · exact .inr (.inr (.inr rfl)))
        obtain ⟨v', n', rfl, hv, rfl⟩ := hd
        simp only [toD] at ed
        cases ev : toD v' with
        | none => rw [ev] at ed; cases ed
        | some xv =>
          rw [ev] at ed
          cases ed
          have hrest : asTail (.pair xv (asTail .nil)) = .pair xv .nil := rfl
          rw [hrest] at Ed ⊢
          have hE : ∀ c, Ext .datum v (pr F .datum true c xv) := by
            intro c
            have := Ed c
            have e : pr F .tail true c (.pair xv .nil) = 32 :: (pr F .datum true c xv ++ pr F .tail true c .nil) := rfl
            rw [e] at this
            have e2 : pr F .tail true c .nil = [] := rfl
            rw [e2] at this
            obtain ⟨s, e3, h⟩ := rest_one this
            rw [List.append_nil] at e3
            injection e3 with _ e3
            rw [e3]
            exact h
          have hn' : ∀ {t : Bytes}, Ext .datum v t → Ext .datum (.pair (.sym name) (.pair v .nil)) (40 :: (asc name ++ (32 :: (t ++ [])) ++ [41])) := fun h =>
            .list (.sym (by rcases hn with ⟨_, rfl⟩ | ⟨_, rfl⟩ | ⟨_, rfl⟩ | ⟨_, rfl⟩ <;> decide +kernel)) (.next h .last)
          have hop : ∀ c, pr F .operand true c (.pair xv .nil) = pr F .datum true c xv := fun _ => rfl
          have e41 : asc ")" = [41] := by decide +kernel
          rcases hn with ⟨hk, rfl⟩ | ⟨hk, rfl⟩ | ⟨hk, rfl⟩ | ⟨hk, rfl⟩
          · have e0 : asc "(quasiquote" = 40 :: asc "quasiquote" := by decide +kernel
            have := hn' (hE { c with qq := true })
            simp only [pr, hk, hop, e0, e41]
            simpa using this
          · have e0 : asc "(quote" = 40 :: asc "quote" := by decide +kernel
            have := hn' (hE c)
            simp only [pr, hk, hop, e0, e41]
            split
            · simpa using Ext.quote (hE c)
            · simpa using this
          · have e0 : asc "(unquote" = 40 :: asc "unquote" := by decide +kernel
            have := hn' (hE { c with unq := true })
            simp only [pr, hk, hop, e0, e41]
            simpa using this
          · have e0 : asc "(unquote-splicing" = 40 :: asc "unquote-splicing" := by decide +kernel
            have := hn' (hE c)
            simp only [pr, hk, hop, e0, e41]
            simpa using this
    · rintro ⟨pa, pd⟩
      obtain ⟨xa, ea, Ea⟩ := (iha ha).1 pa
      obtain ⟨xd, ed, Ed⟩ := (ihd hd).2 pd
      refine ⟨.pair xa (asTail xd), by simp only [toD, ea, ed], fun c => ?_⟩
      have e : pr F .tail true c (asTail (.pair xa (asTail xd))) = 32 :: (pr F .datum true c xa ++ pr F .tail true c (asTail xd)) := rfl
      rw [e]
      exact .next (Ea c) (Ed c)
  | unspecified => exact fun _ => ⟨fun h => absurd h id, fun h => absurd h id⟩
  | undefined => exact fun _ => ⟨fun h => absurd h id, fun h => absurd h id⟩
  | unassigned => exact fun _ => ⟨fun h => absurd h id, fun h => absurd h id⟩
  | prim x => exact fun _ => ⟨fun h => absurd h id, fun h => absurd h id⟩
  | clo ps rest body ρ => exact fun _ => ⟨fun h => absurd h id, fun h => absurd h id⟩

/-! ## Reading -/

theorem program_reads {F : FloIO} {text : Bytes} {vs : List V} (h : ProgramText F text vs) :
    ∀ n, text.length < n → ∃ ds r, parseAll F n text = .ok ds r ∧ exprsOf ds = some vs := by
  induction h with
  | @done w hw h0 =>
    intro n hn
    cases n with
    | zero => omega
    | succ n =>
      have : skipWs w = [] := (skip_all w h0).2 hw
      refine ⟨.nil, [], ?_, rfl⟩
      unfold parseAll
      rw [this]
      rfl
  | @form w t d v rest vs hw ht hc hv he _ ih =>
    intro n hn
    cases n with
    | zero => omega
    | succ n =>
      have hst := (written_meaning ht).1
      have h1 : skipWs (w ++ (t ++ rest)) = t ++ rest := by rw [skipWs_blank hw]; exact Start2.skip hst rest
      have h2 : cur (t ++ rest) ≠ 0 := by
        obtain ⟨c, u, rfl, _, _, h0, _⟩ := hst
        exact h0
      have hlen : rest.length < n := by
        obtain ⟨c, u, rfl, _⟩ := hst
        simp only [List.length_append, List.length_cons] at hn
        omega
      obtain ⟨ds, r, h3, h4⟩ := ih n hlen
      refine ⟨.pair d ds, r, ?_, by simp only [exprsOf, hv, h4]⟩
      unfold parseAll
      rw [h1, if_neg (by simpa using h2), c87_grammar ht hc he]
      simp only [need, h3]

theorem form_reads {F : FloIO} {text : Bytes} {v : V} (h : FormText F text v) : readText F text = some (.datum v) := by
  obtain ⟨w, t, e, d, rfl, hw, ht, hc, hv, he⟩ := h
  unfold readText
  rw [c87_whole hw ht hc he]
  simp only [hv, Option.map_some]

/-! ## Every program has a text -/

theorem ofD_asTail {v : V} {d : D} (h : toD v = some d) (hv : ofD d = some v) : ofD (asTail d) = some v := by
  cases d with
  | nil => exact hv
  | pair a b => exact hv
  | dot x => 
    cases v with
    | pair a b =>
      simp only [toD] at h
      split at h <;> cases h
    | str s => simp only [toD] at h; cases hb : bytes s <;> rw [hb] at h <;> cases h
    | sym s => simp only [toD] at h; cases hb : bytes s <;> rw [hb] at h <;> cases h
    | vec s => simp only [toD] at h; cases hb : toD s <;> rw [hb] at h <;> cases h
    | _ => cases h
  | ratio a b => cases hv
  | vec e =>
    simp only [asTail, ofD] at hv ⊢
    cases he : ofD e with
    | none => rw [he] at hv; cases hv
    | some x => rw [he] at hv; cases hv; rfl
  | _ => cases hv; rfl

/-- The reader's tree of a value is read as this value. -/
theorem ofD_toD {v : V} : ∀ {d : D}, toD v = some d → ofD d = some v := by
  induction v with
  | pair a b iha ihb =>
    intro d h
    simp only [toD] at h
    split at h
    · rename_i x y hx hy
      cases h
      simp only [ofD, iha hx, ofD_asTail hy (ihb hy)]
    · cases h
  | str s =>
    intro d h
    simp only [toD] at h
    cases hb : bytes s with
    | none => rw [hb] at h; cases h
    | some b => rw [hb] at h; cases h; simp only [ofD, chars_bytes hb]
  | sym s =>
    intro d h
    simp only [toD] at h
    cases hb : bytes s with
    | none => rw [hb] at h; cases h
    | some b => rw [hb] at h; cases h; simp only [ofD, chars_bytes hb]
  | vec e ih =>
    intro d h
    simp only [toD] at h
    cases hb : toD e with
    | none => rw [hb] at h; cases h
    | some b => rw [hb] at h; cases h; simp only [ofD, ih hb, Option.map_some]
  | nil => intro d h; cases h; rfl
  | bool b => intro d h; cases h; rfl
  | num b => intro d h; cases h; rfl
  | flo b => intro d h; cases h; rfl
  | chr b => intro d h; cases h; rfl
  | _ => intro d h; cases h

theorem plain_asTail {d : D} (h : Rd.Spec.Plain d) : Rd.Spec.Plain (asTail d) := by
  cases d with
  | nil => exact h
  | pair a b => exact h
  | _ => exact ⟨h, by simp⟩

theorem plain_toD {v : V} : ∀ {d : D}, toD v = some d → Rd.Spec.Plain d := by
  induction v with
  | pair a b iha ihb =>
    intro d h
    simp only [toD] at h
    split at h
    · rename_i x y hx hy
      cases h
      exact ⟨iha hx, plain_asTail (ihb hy)⟩
    · cases h
  | str s => intro d h; simp only [toD] at h; cases hb : bytes s <;> rw [hb] at h <;> cases h; trivial
  | sym s => intro d h; simp only [toD] at h; cases hb : bytes s <;> rw [hb] at h <;> cases h; trivial
  | vec e ih =>
    intro d h
    simp only [toD] at h
    cases hb : toD e with
    | none => rw [hb] at h; cases h
    | some b => rw [hb] at h; cases h; have := ih hb; exact this
  | nil => intro d h; cases h; trivial
  | bool b => intro d h; cases h; trivial
  | num b => intro d h; cases h; trivial
  | flo b => intro d h; cases h; trivial
  | chr b => intro d h; cases h; trivial
  | _ => intro d h; cases h

/-- A value whose tree is readable, and its text. -/
structure HasText (v : V) (d : D) : Prop where
  tree : toD v = some d
  readable : Rd.Spec.Readable .datum d
  dot : ∀ t, d ≠ .sym (46 :: t)

theorem HasText.token {F : FloIO} {v : V} {d : D} (h : HasText v d) : Token F (print F true d) d := by
  obtain ⟨d', ht, _⟩ := c69_tokens (F := F) h.readable h.dot
  refine ⟨fun rest he => ?_, ht.first⟩
  have := (back (F := F) d).1 h.readable ⟨false, false⟩ rest (ends_iff.1 he)
  rw [canon_plain (plain_toD h.tree)] at this
  rw [parseExpr_lim]
  exact this

theorem HasText.notComma {F : FloIO} {v : V} {d : D} (h : HasText v d) : NotFirst 44 (print F true d) := by
  obtain ⟨c, u, he, hc⟩ := (h.token (F := F)).first
  intro u' e
  rw [he] at e
  injection e with e
  subst e
  exact absurd hc (by decide)

/-- One form on each line. -/
def listing (F : FloIO) : List D → Bytes
  | [] => []
  | d :: ds => print F true d ++ 10 :: listing F ds

inductive HasTexts : List V → List D → Prop
  | nil : HasTexts [] []
  | cons {v d vs ds} : HasText v d → HasTexts vs ds → HasTexts (v :: vs) (d :: ds)

theorem program_text_aux {F : FloIO} {vs : List V} {ds : List D} (h : HasTexts vs ds) {w : Bytes} (hw : Rd.Spec.Blank w) (h0 : 0 ∉ w) : ProgramText F (w ++ listing F ds) vs := by
  induction h generalizing w with
  | nil => exact .done ⟨w, [], by simp [listing], hw, .inl rfl⟩ (by simpa [listing] using h0)
  | @cons v d vs ds hv _ ih =>
    refine .form hw (.atom hv.token) hv.notComma (ofD_toD hv.tree) (.inr ⟨10, _, rfl, by decide⟩) ?_
    exact ih (w := [10]) (.space (by decide) .nil) (by decide)

end Pscm.Scr
