import Verif.LastErrSpec
import Verif.EvApi2Props
/-!
# Lemmas for C133
-/
namespace Pscm
open Pscm.Ev
variable {σ : Type} {P : Prims σ}

/-- Both pointers point to blocks that are not deleted, not to the same one, and there are no other such blocks. -/
structure GoodErr (h : Host) : Prop where
  key : ∀ i, h.key = some i → ∃ s, h.bufs[i]? = some (some s)
  msg : ∀ i, h.msg = some i → ∃ s, h.bufs[i]? = some (some s)
  apart : ∀ i, h.key = some i → h.msg ≠ some i
  only : ∀ i s, h.bufs[i]? = some (some s) → h.key = some i ∨ h.msg = some i

theorem good_fresh : GoodErr .fresh := ⟨by simp [Host.fresh], by simp [Host.fresh], by simp [Host.fresh], by simp [Host.fresh]⟩

theorem deleteBuf_spec {b : List (Option String)} {p : Option Nat} (h : ∀ i, p = some i → ∃ s, b[i]? = some (some s)) :
    ∃ b', deleteBuf b p = some b' ∧ b'.length = b.length ∧ ∀ i s, b'[i]? = some (some s) ↔ (b[i]? = some (some s) ∧ p ≠ some i) := by
  cases p with
  | none => exact ⟨b, rfl, rfl, by simp⟩
  | some j =>
    obtain ⟨s, hs⟩ := h j rfl
    refine ⟨b.set j none, by simp [deleteBuf, hs], by simp, fun i t => ?_⟩
    rw [List.getElem?_set]
    have hj : j < b.length := by
      rcases Nat.lt_or_ge j b.length with h | h
      · exact h
      · rw [List.getElem?_eq_none h] at hs; cases hs
    by_cases e : j = i
    · subst e; simp [hj]
    · simp [e]

/-- Everything about the handler: it never deletes twice; the new pointers; every older block is deleted. -/
theorem apiHandler_spec {h : Host} (g : GoodErr h) (k : Name) (a : V) : ∃ h', apiHandler h k a = some h' ∧ GoodErr h' ∧
    h'.read h'.lastKey = .text (cText (cText k)) ∧
    h'.read h'.lastMessage = (match handlerText a with | some m => .text (cText m) | none => .none) ∧
    ∀ i, i < h.bufs.length → h'.read (some i) = .dangling := by
  obtain ⟨b1, e1, l1, d1⟩ := deleteBuf_spec g.msg
  have hk : ∀ i, h.key = some i → ∃ s, b1[i]? = some (some s) := by
    intro i hi
    obtain ⟨s, hs⟩ := g.key i hi
    exact ⟨s, (d1 i s).2 ⟨hs, g.apart i hi⟩⟩
  obtain ⟨b2, e2, l2, d2⟩ := deleteBuf_spec hk
  have dead : ∀ (i : Nat) (s : String), b2[i]? ≠ some (some s) := by
    intro i s hi
    obtain ⟨hi, n2⟩ := (d2 i s).1 hi
    obtain ⟨hi, n1⟩ := (d1 i s).1 hi
    rcases g.only i s hi with h | h
    · exact n2 h
    · exact n1 h
  have dead' : ∀ i, i < h.bufs.length → b2[i]? = some none := by
    intro i hi
    have hi : i < b2.length := by omega
    rw [List.getElem?_eq_getElem hi]
    cases hb : b2[i] with
    | none => rfl
    | some s => exact absurd (by rw [List.getElem?_eq_getElem hi, hb]) (dead i s)
  have old : ∀ (i : Nat) (t : List (Option String)), i < b2.length → (b2 ++ t)[i]? = b2[i]? := fun i t hi => List.getElem?_append_left hi
  cases hm : handlerText a with
  | none =>
    refine ⟨⟨b2 ++ [some (cText k)], some b2.length, none⟩, by simp [apiHandler, e1, e2, hm], ?_, ?_, rfl, ?_⟩
    · refine ⟨?_, by simp, by simp, ?_⟩
      · intro i hi
        simp only [Option.some.injEq] at hi
        subst hi
        exact ⟨cText k, by simp⟩
      · intro i s hi
        rcases Nat.lt_trichotomy i b2.length with h | h | h
        · rw [show (b2 ++ [some (cText k)])[i]? = b2[i]? from old i _ h] at hi
          exact absurd hi (dead i s)
        · exact .inl (by rw [h])
        · rw [show (b2 ++ [some (cText k)])[i]? = none from List.getElem?_eq_none (by simp; omega)] at hi
          cases hi
    · simp [Host.read, Host.lastKey]
    · intro i hi
      simp only [Host.read]
      rw [old i _ (by omega), dead' i hi]
  | some m =>
    refine ⟨⟨b2 ++ [some (cText k)] ++ [some m], some b2.length, some (b2.length + 1)⟩, by simp [apiHandler, e1, e2, hm], ?_, ?_, ?_, ?_⟩
    · refine ⟨?_, ?_, by simp, ?_⟩
      · intro i hi
        simp only [Option.some.injEq] at hi
        subst hi
        exact ⟨cText k, by simp⟩
      · intro i hi
        simp only [Option.some.injEq] at hi
        subst hi
        exact ⟨m, by simp⟩
      · intro i s hi
        rcases Nat.lt_trichotomy i b2.length with h | h | h
        · rw [show (b2 ++ [some (cText k)] ++ [some m])[i]? = b2[i]? by rw [List.append_assoc]; exact old i _ h] at hi
          exact absurd hi (dead i s)
        · exact .inl (by rw [h])
        · rcases Nat.lt_or_ge (b2.length + 1) i with h' | h'
          · rw [show (b2 ++ [some (cText k)] ++ [some m])[i]? = none from List.getElem?_eq_none (by simp; omega)] at hi
            cases hi
          · exact .inr (congrArg some (show b2.length + 1 = i by omega))
    · simp [Host.read, Host.lastKey]
    · simp [Host.read, Host.lastMessage]
    · intro i hi
      simp only [Host.read]
      rw [List.append_assoc, old i _ (by omega), dead' i hi]

theorem takeWhile_idem {α : Type} (p : α → Bool) : ∀ l : List α, (l.takeWhile p).takeWhile p = l.takeWhile p
  | [] => rfl
  | x :: xs => by
    by_cases h : p x
    · simp [h, takeWhile_idem p xs]
    · simp [h]

theorem cText_idem (s : String) : cText (cText s) = cText s := by
  unfold cText
  rw [String.toList_ofList, takeWhile_idem]

theorem handlerText_spec (args : List V) : (match handlerText (listOf args) with | some m => Text.text (cText m) | none => .none) = messageOf args := by
  unfold messageOf
  cases args with
  | nil => rfl
  | cons x xs =>
    cases xs with
    | nil => cases x <;> rfl
    | cons y ys =>
      cases x <;> first | rfl | (cases y <;> rfl)

/-- What the record holds after errors `es`, in order, when it held `h` before. -/
structure Records (h h' : Host) (es : List (Name × V)) : Prop where
  good : GoodErr h'
  same : es = [] → h' = h
  last : ∀ k a, es.getLast? = some (k, a) → h'.read h'.lastKey = .text (cText k) ∧ ∀ args, a = listOf args → h'.read h'.lastMessage = messageOf args
  dead : es ≠ [] → ∀ i, i < h.bufs.length → h'.read (some i) = .dangling
  grow : h.bufs.length ≤ h'.bufs.length

theorem Records.refl {h : Host} (g : GoodErr h) : Records h h [] := ⟨g, fun _ => rfl, by simp, by simp, Nat.le_refl _⟩

theorem deleteBuf_length {b b' : List (Option String)} {p : Option Nat} (h : deleteBuf b p = some b') : b'.length = b.length := by
  cases p with
  | none => cases h; rfl
  | some i =>
    unfold deleteBuf at h
    cases hb : b[i]? with
    | none => simp [hb] at h
    | some o =>
      cases o with
      | none => simp [hb] at h
      | some t =>
        simp only [hb, Option.some.injEq] at h
        rw [← h]
        simp

theorem apiHandler_length {h h' : Host} {k : Name} {a : V} (e : apiHandler h k a = some h') : h.bufs.length ≤ h'.bufs.length := by
  unfold apiHandler at e
  cases e1 : deleteBuf h.bufs h.msg with
  | none => rw [e1] at e; cases e
  | some b1 =>
    simp only [e1] at e
    cases e2 : deleteBuf b1 h.key with
    | none => simp [e2] at e
    | some b2 =>
      have := deleteBuf_length e1
      have := deleteBuf_length e2
      simp only [e2] at e
      split at e <;> · cases e; simp; omega

/-- Delivering a result never deletes twice, and records the error. -/
theorem deliver_spec {h : Host} (g : GoodErr h) (r : ApiRes) : ∃ a es h', Ends r a es ∧ deliver h r = some (a, h') ∧ Records h h' es := by
  cases r with
  | value v => exact ⟨_, _, h, .value, rfl, .refl g⟩
  | null => exact ⟨_, _, h, .null, rfl, .refl g⟩
  | failed k a =>
    obtain ⟨h', e, g', hk, hm, hd⟩ := apiHandler_spec g k a
    refine ⟨_, _, h', .failed, by simp [deliver, e], g', by simp, ?_, fun _ => hd, apiHandler_length e⟩
    intro k' a' he
    simp only [List.getLast?_singleton, Option.some.injEq, Prod.mk.injEq] at he
    obtain ⟨rfl, rfl⟩ := he
    refine ⟨by rw [hk, cText_idem], ?_⟩
    rintro args rfl
    rw [hm, handlerText_spec]

theorem Records.trans {h h1 h2 : Host} {es es' : List (Name × V)} (r1 : Records h h1 es) (r2 : Records h1 h2 es') : Records h h2 (es ++ es') := by
  refine ⟨r2.good, ?_, ?_, ?_, Nat.le_trans r1.grow r2.grow⟩
  · intro e
    simp only [List.append_eq_nil_iff] at e
    rw [r2.same e.2, r1.same e.1]
  · intro k a e
    cases es' with
    | nil =>
      rw [List.append_nil] at e
      cases r2.same rfl
      exact r1.last k a e
    | cons x xs =>
      rw [List.getLast?_append, List.getLast?_eq_some_getLast (by simp : x :: xs ≠ []), Option.some_or, ← List.getLast?_eq_some_getLast] at e
      exact r2.last k a e
  · intro _ i hi
    cases es' with
    | nil =>
      cases r2.same rfl
      exact r1.dead (by simp_all) i hi
    | cons x xs => exact r2.dead (by simp) i (Nat.lt_of_lt_of_le hi r1.grow)

theorem hostCall_ok {m : EM σ ApiRes} {h h' : Host} {a : Answer} {s s' : St σ} (g : GoodErr h) (e : hostCall m h s = some (.ok (a, h'), s')) :
    ∃ r es, m s = some (.ok r, s') ∧ Ends r a es ∧ Records h h' es := by
  unfold hostCall at e
  rw [bind_eq_some] at e
  rcases e with ⟨r, s1, h1, h2⟩ | ⟨x, _, h2⟩
  · obtain ⟨a', es, h'', he, hd, hr⟩ := deliver_spec g r
    simp only [hd] at h2
    cases h2
    exact ⟨r, es, h1, he, hr⟩
  · cases h2

theorem hostEach_ok {n : Nat} {xs : List V} {a0 a : Answer} {h h' : Host} {s s' : St σ} (g : GoodErr h)
    (e : hostEach P n xs a0 h s = some (.ok (a, h'), s')) : ∃ es, EachEnds P xs a0 s a es s' ∧ Records h h' es := by
  induction xs generalizing a0 h s with
  | nil => cases e; exact ⟨[], .nil, .refl g⟩
  | cons x xs ih =>
    unfold hostEach at e
    rw [bind_eq_some] at e
    rcases e with ⟨⟨a1, h1⟩, s1, e1, e2⟩ | ⟨y, _, e2⟩
    · obtain ⟨r, es, hm, he, hr⟩ := hostCall_ok g e1
      obtain ⟨es', h3, h4⟩ := ih hr.good e2
      exact ⟨_, .cons n hm he h3, hr.trans h4⟩
    · cases e2

theorem hostAsk_ok {n : Nat} {q : Ask} {a : Answer} {h h' : Host} {s s' : St σ} (g : GoodErr h)
    (e : hostAsk P n h q s = some (.ok (a, h'), s')) : ∃ es, CallEnds P q s a es s' ∧ Records h h' es := by
  cases q with
  | eval x => obtain ⟨r, es, hm, he, hr⟩ := hostCall_ok g e; exact ⟨es, .eval n hm he, hr⟩
  | parse t => obtain ⟨r, es, hm, he, hr⟩ := hostCall_ok g e; exact ⟨es, .parse hm he, hr⟩
  | evalString t => obtain ⟨r, es, hm, he, hr⟩ := hostCall_ok g e; exact ⟨es, .evalString n hm he, hr⟩
  | evalFile path =>
    simp only [hostAsk] at e
    rw [Ev.getSt_bind] at e
    cases hf : P.file path s.ext with
    | missing =>
      simp only [hf] at e
      cases e
      exact ⟨[], .noFile hf, .refl g⟩
    | malformed => 
      simp only [hf] at e
      cases e
    | exprs xs =>
      simp only [hf] at e
      obtain ⟨es, h1, h2⟩ := hostEach_ok g e
      exact ⟨es, .file hf h1, h2⟩

theorem pscmEvalString_le (P : Prims σ) {n m : Nat} (h : n ≤ m) (t : ReadRes) : EM.Le (pscmEvalString P n t) (pscmEvalString P m t) := by
  unfold pscmEvalString apiCatch
  refine EM.bind_le (EM.le_refl _) fun s => ?_
  split
  · exact EM.le_refl _
  · refine EM.bind_le (EM.le_refl _) fun id => EM.handle_le (EM.bind_le (EM.le_refl _) fun r => ?_) fun o => EM.le_refl _
    cases r with
    | value v => exact pscmEval_le P h v
    | null => exact EM.le_refl _
    | failed k a => exact EM.le_refl _

theorem le_unique {α : Type} {f : Nat → EM σ α} (hf : ∀ {n m : Nat}, n ≤ m → EM.Le (f n) (f m)) {n m : Nat} {s s1 s2 : St σ} {o1 o2 : Out α}
    (h1 : f n s = some (o1, s1)) (h2 : f m s = some (o2, s2)) : o1 = o2 ∧ s1 = s2 := by
  rcases Nat.le_total n m with h | h
  · have := (hf h).le _ _ h1
    rw [h2] at this
    cases this
    exact ⟨rfl, rfl⟩
  · have := (hf h).le _ _ h2
    rw [h1] at this
    cases this
    exact ⟨rfl, rfl⟩

theorem ends_unique {r : ApiRes} {a a' : Answer} {es es' : List (Name × V)} (h : Ends r a es) (h' : Ends r a' es') : a = a' ∧ es = es' := by
  cases h <;> cases h' <;> exact ⟨rfl, rfl⟩

theorem eachEnds_unique {xs : List V} {a0 a a' : Answer} {s s1 s2 : St σ} {es es' : List (Name × V)} (h : EachEnds P xs a0 s a es s1)
    (h' : EachEnds P xs a0 s a' es' s2) : a = a' ∧ es = es' ∧ s1 = s2 := by
  induction h generalizing a' es' s2 with
  | nil => cases h'; exact ⟨rfl, rfl, rfl⟩
  | cons n h1 h2 _ ih =>
    cases h' with
    | cons m g1 g2 g3 =>
      obtain ⟨e, rfl⟩ := le_unique (f := fun n => pscmEval P n _) (fun h => pscmEval_le P h _) h1 g1
      cases e
      obtain ⟨rfl, rfl⟩ := ends_unique h2 g2
      obtain ⟨rfl, rfl, rfl⟩ := ih g3
      exact ⟨rfl, rfl, rfl⟩

/-- The errors of a call are determined by the call and the state. -/
theorem callEnds_unique {q : Ask} {a a' : Answer} {s s1 s2 : St σ} {es es' : List (Name × V)} (h : CallEnds P q s a es s1)
    (h' : CallEnds P q s a' es' s2) : a = a' ∧ es = es' ∧ s1 = s2 := by
  cases h with
  | eval n h1 h2 =>
    cases h' with
    | eval m g1 g2 =>
      obtain ⟨e, rfl⟩ := le_unique (f := fun n => pscmEval P n _) (fun h => pscmEval_le P h _) h1 g1
      cases e
      obtain ⟨rfl, rfl⟩ := ends_unique h2 g2
      exact ⟨rfl, rfl, rfl⟩
  | parse h1 h2 =>
    cases h' with
    | parse g1 g2 =>
      rw [h1] at g1
      cases g1
      obtain ⟨rfl, rfl⟩ := ends_unique h2 g2
      exact ⟨rfl, rfl, rfl⟩
  | evalString n h1 h2 =>
    cases h' with
    | evalString m g1 g2 =>
      obtain ⟨e, rfl⟩ := le_unique (f := fun n => pscmEvalString P n _) (fun h => pscmEvalString_le P h _) h1 g1
      cases e
      obtain ⟨rfl, rfl⟩ := ends_unique h2 g2
      exact ⟨rfl, rfl, rfl⟩
  | noFile h1 =>
    cases h' with
    | noFile g1 => exact ⟨rfl, rfl, rfl⟩
    | file g1 g2 => rw [h1] at g1; cases g1
  | file h1 h2 =>
    cases h' with
    | noFile g1 => rw [h1] at g1; cases g1
    | file g1 g2 =>
      rw [h1] at g1
      cases g1
      exact eachEnds_unique h2 g2

theorem used_records {s : St σ} {h : Host} {es : List (Name × V)} (u : Used P s h es) : Records .fresh h es := by
  induction u with
  | start => exact .refl good_fresh
  | call _ e hc ih =>
    obtain ⟨es', h1, h2⟩ := hostAsk_ok ih.good e
    obtain ⟨-, rfl, -⟩ := callEnds_unique h1 hc
    exact ih.trans h2

theorem pscmEval_not_null {n : Nat} {x : V} {s s' : St σ} {r : ApiRes} (h : pscmEval P n x s = some (.ok r, s')) : r ≠ .null := by
  unfold pscmEval apiCatch at h
  rw [Ev.getSt_bind] at h
  split at h
  · unfold evalError at h
    cases h
  · change EM.handle (ev P n (.eval 0 x) >>= fun v => pure (ApiRes.value v)) _ _ = _ at h
    unfold EM.handle at h
    rw [bind_apply] at h
    cases e : ev P n (.eval 0 x) { s with next := s.next + 1, catches := ⟨s.next, .bool true⟩ :: s.catches, live := s.next :: s.live } with
    | none => rw [e] at h; cases h
    | some y =>
      obtain ⟨o, s1⟩ := y
      rw [e] at h
      cases o with
      | ok v => cases h; simp
      | stop z =>
        cases z with
        | err t k a =>
          cases t with
          | none => cases h
          | some t =>
            simp only [] at h
            split at h
            · cases h; simp
            · cases h
        | esc i v => cases h
        | abort => cases h
        | ub => cases h
        | unmod => cases h

end Pscm
