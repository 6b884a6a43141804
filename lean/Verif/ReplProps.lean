import Verif.ReplPrint
import Verif.ReaderProps
/-!
# C111: the read-eval-print loop
-/
namespace Pscm.Repl
open Rd Rd.Spec
open Port (StrBody)
variable {F : FloIO} {σ : Type}

/-- The REPL regards a text as complete: parentheses match outside of string literals and comments; a string literal or a comment may be
unfinished at the end.  (A backslash takes the meaning of the next byte away, also in comments.) -/
def Complete (s : Bytes) : Prop := ∃ b e, s = b ++ e ∧ Nested b ∧ Dangling e

/-- The text of some lines, each ended by a newline. -/
def text : List Bytes → Bytes
  | [] => []
  | l :: ls => l ++ 10 :: text ls

/-- A line as the REPL can take it: at most 4094 bytes, none of them a newline or NUL. -/
def Line (l : Bytes) : Prop := l.length ≤ 4094 ∧ (10 : UInt8) ∉ l ∧ (0 : UInt8) ∉ l

/-- Lines that hold exactly one expression `d` and are complete with the last line, not before. -/
structure Entry (F : FloIO) (ls : List Bytes) (d : D) : Prop where
  some : ls ≠ []
  lines : ∀ l ∈ ls, Line l
  whole : Complete (text ls)
  first : ∀ p q, ls = p ++ q → p ≠ [] → q ≠ [] → ¬ Complete (text p)
  reads : ∃ r, parse F (text ls) = .ok d r

/-- Something typed: an expression on some lines, or (without expression) a line of spaces and tabs. -/
structure Item where
  lines : List Bytes
  expr : Option D

def Item.Ok (F : FloIO) (i : Item) : Prop :=
  match i.expr with
  | some d => Entry F i.lines d
  | none => ∃ l, i.lines = [l] ∧ Line l ∧ ∀ c ∈ l, c = 32 ∨ c = 9 ∨ c = 13

/-- The whole input. -/
def typed (is : List Item) : Bytes := is.flatMap fun i => text i.lines

/-- What should happen: for every expression typed the prompts for its lines, the expression, and its value in the world left by the
evaluations before it; then the end. -/
def script (E : Eval σ) : σ → List Item → List Event
  | _, [] => [.prompt false, .bye]
  | s, i :: is =>
    .prompt false :: (List.replicate (i.lines.length - 1) (.prompt true) ++
      match i.expr with
      | none => script E s is
      | some d => .echo d :: match E s d with
        | none => [.ended]
        | some (v, s') => .value v :: script E s' is)

/-! ## Lemmas -/

theorem balanced_iff (s : Bytes) : isBalanced s = true ↔ Complete s := by
  constructor
  · intro h
    unfold isBalanced at h
    split at h
    · cases h
    · rename_i s' e
      have := closes_of_scan s.length s (Nat.le_refl _) 0 s' e (by simpa using h)
      cases this with
      | last hb he => exact ⟨_, _, rfl, hb, he⟩
  · rintro ⟨b, e, rfl, hb, he⟩
    obtain ⟨s', h1, h2⟩ := scan_dangling he 0
    have : scan {} (b ++ e) = some s' := by
      rw [scan_append]
      show (scan (at_ 0) b).bind _ = _
      rw [scan_nested hb 0]
      exact h1
    rw [isBalanced, this]
    simp [h2]

theorem not_balanced {s : Bytes} (h : ¬ Complete s) : isBalanced s = false := by
  cases hb : isBalanced s
  · rfl
  · exact absurd ((balanced_iff s).1 hb) h

theorem fgets_line {rest : Bytes} : ∀ (n : Nat) (l : Bytes), l.length < n → (10 : UInt8) ∉ l → fgets n (l ++ 10 :: rest) = (l ++ [10], rest)
  | 0, _, h, _ => by omega
  | n + 1, [], _, _ => by simp [fgets]
  | n + 1, c :: l, h, hn => by
    have hc : (c == 10) = false := by
      rw [beq_eq_false_iff_ne]; rintro rfl; exact hn (by simp)
    rw [List.cons_append, fgets, if_neg (by simp [hc]), fgets_line n l (by simpa using h) (fun h => hn (by simp [h]))]
    rfl

theorem cstr_line {l : Bytes} (h : (0 : UInt8) ∉ l) : cstr (l ++ [10]) = l ++ [10] := by
  have : ∀ (s : Bytes), (0 : UInt8) ∉ s → s.takeWhile (· != 0) = s := by
    intro s hs
    induction s with
    | nil => rfl
    | cons c s ih =>
      have hc : (c != 0) = true := by simp; rintro rfl; exact hs (by simp)
      rw [List.takeWhile_cons, if_pos hc, ih fun h => hs (by simp [h])]
  exact this _ (by simp [h])

theorem not_truncated (l : Bytes) : truncated (l ++ [10]) = false := by simp [truncated]

/-- One line of a session. -/
theorem loop_line {E : Eval σ} {n : Nat} {s : σ} {buf l rest : Bytes} (h : Line l) :
    loop F E (n + 1) s buf (l ++ 10 :: rest) = .prompt (!buf.isEmpty) ::
      if isBalanced (buf ++ (l ++ [10])) then runText F E s (buf ++ (l ++ [10])) fun s' => loop F E n s' [] rest
      else loop F E n s (buf ++ (l ++ [10])) rest := by
  have hf := fgets_line (rest := rest) 4095 l (by have := h.1; omega) h.2.1
  have hc := cstr_line h.2.2
  have ht := not_truncated l
  cases e : l ++ 10 :: rest with
  | nil => simp at e
  | cons a b =>
    rw [← e]
    have : ∀ inp, inp = l ++ 10 :: rest → loop F E (n + 1) s buf inp = .prompt (!buf.isEmpty) ::
      if isBalanced (buf ++ (l ++ [10])) then runText F E s (buf ++ (l ++ [10])) fun s' => loop F E n s' [] rest
      else loop F E n s (buf ++ (l ++ [10])) rest := by
      intro inp hi
      have hinp : inp = a :: b := hi.trans e
      rw [hinp]
      simp only [loop]
      rw [← hinp, hi, hf]
      simp only [hc, ht, Bool.false_eq_true, if_false, List.nil_append]
    exact this _ rfl

theorem text_append (p q : List Bytes) : text (p ++ q) = text p ++ text q := by
  induction p with
  | nil => rfl
  | cons l p ih => simp [text, ih]

theorem text_ne {ls : List Bytes} (h : ls ≠ []) : text ls ≠ [] := by
  cases ls with
  | nil => exact absurd rfl h
  | cons l ls => simp [text]

/-- The lines of an entry, one after the other. -/
theorem loop_lines {E : Eval σ} {s : σ} {rest : Bytes} : ∀ (q p : List Bytes) (n : Nat), q ≠ [] → (∀ l ∈ q, Line l) → isBalanced (text (p ++ q)) = true →
    (∀ a b, q = a ++ b → a ≠ [] → b ≠ [] → isBalanced (text (p ++ a)) = false) →
    loop F E (n + q.length) s (text p) (text q ++ rest) = .prompt (!(text p).isEmpty) :: (List.replicate (q.length - 1) (.prompt true) ++
      runText F E s (text (p ++ q)) fun s' => loop F E n s' [] rest)
  | [], _, _, h, _, _, _ => absurd rfl h
  | [l], p, n, _, hl, hb, _ => by
    have e : text [l] ++ rest = l ++ 10 :: rest := by simp [text]
    have e2 : text p ++ (l ++ [10]) = text (p ++ [l]) := by rw [text_append]; rfl
    rw [e]
    show loop F E (n + 1) s _ _ = _
    rw [loop_line (hl l (by simp)), e2, if_pos hb]
    rfl
  | l :: l2 :: q, p, n, _, hl, hb, hf => by
    have e : text (l :: l2 :: q) ++ rest = l ++ 10 :: (text (l2 :: q) ++ rest) := by simp [text]
    have e2 : text p ++ (l ++ [10]) = text (p ++ [l]) := by rw [text_append]; rfl
    rw [e]
    show loop F E (n + (l2 :: q).length + 1) s _ _ = _
    rw [loop_line (hl l (by simp)), e2, hf [l] (l2 :: q) rfl (by simp) (by simp)]
    have ih := loop_lines (E := E) (s := s) (rest := rest) (l2 :: q) (p ++ [l]) n (by simp) (fun x hx => hl x (.tail _ hx)) (by simpa using hb)
      (fun a b hab ha hb => by
        have := hf (l :: a) b (by rw [hab]; rfl) (by simp) hb
        simpa using this)
    simp only [Bool.false_eq_true, if_false]
    rw [ih]
    have hne : (text (p ++ [l])).isEmpty = false := by
      cases h : text (p ++ [l]) with
      | nil => exact absurd h (text_ne (by simp))
      | cons a b => rfl
    rw [hne]
    simp [List.replicate_succ]

theorem blank_spec {s : Bytes} (h : blank s = true) : Blank s := by
  induction s with
  | nil => exact .nil
  | cons c s ih =>
    simp only [blank, List.all_cons, Bool.and_eq_true, Bool.or_eq_true, beq_iff_eq] at h
    refine .space ?_ (ih (by simpa [blank] using h.2))
    rcases h.1 with ((h | h) | h) | h <;> subst h <;> decide

theorem blank_not_read {s r : Bytes} {d : D} (h : parse F s = .ok d r) : blank s = false := by
  cases hb : blank s
  · rfl
  · have := (c69_blank (F := F) (blank_spec hb) []).2
    rw [List.append_nil, h] at this
    have : parse F [] = .ok d r := this.symm
    cases this

theorem fgets_short : ∀ (n : Nat) (s : Bytes), (fgets n s).2.length ≤ s.length
  | 0, s => Nat.le_refl _
  | _ + 1, [] => Nat.le_refl _
  | n + 1, c :: t => by
    rw [fgets]
    split
    · simp
    · have := fgets_short n t
      simp; omega

theorem discard_short : ∀ (s : Bytes), (discard s).length ≤ s.length
  | [] => Nat.le_refl _
  | c :: t => by
    rw [discard]
    split
    · simp
    · have := discard_short t
      simp; omega

/-- The input after one round of the loop. -/
def restOf (inp : Bytes) : Bytes :=
  if truncated (cstr (fgets 4095 inp).1) then discard (fgets 4095 inp).2 else (fgets 4095 inp).2

theorem restOf_short {c : UInt8} {t : Bytes} : (restOf (c :: t)).length < (c :: t).length := by
  have h : (fgets 4095 (c :: t)).2.length ≤ t.length := by
    rw [fgets]
    split
    · simp
    · exact fgets_short _ _
  have := discard_short (fgets 4095 (c :: t)).2
  unfold restOf
  split <;> simp <;> omega

theorem loop_cons {E : Eval σ} {n : Nat} {s : σ} {buf : Bytes} {c : UInt8} {t : Bytes} : loop F E (n + 1) s buf (c :: t) = .prompt (!buf.isEmpty) ::
    ((if truncated (cstr (fgets 4095 (c :: t)).1) then [.warning] else []) ++
      if isBalanced (buf ++ cstr (fgets 4095 (c :: t)).1) then
        runText F E s (buf ++ cstr (fgets 4095 (c :: t)).1) fun s' => loop F E n s' [] (restOf (c :: t))
      else loop F E n s (buf ++ cstr (fgets 4095 (c :: t)).1) (restOf (c :: t))) := by
  simp only [loop, restOf]

theorem loop_fuel {E : Eval σ} (k : Nat) : ∀ (n : Nat) (s : σ) (buf inp : Bytes), inp.length < n → loop F E (n + k) s buf inp = loop F E n s buf inp
  | 0, _, _, _, h => by omega
  | n + 1, s, buf, [], _ => by rw [show n + 1 + k = n + k + 1 by omega]; rfl
  | n + 1, s, buf, c :: t, h => by
    rw [show n + 1 + k = n + k + 1 by omega, loop_cons, loop_cons]
    have hs := restOf_short (c := c) (t := t)
    rw [loop_fuel k n s _ (restOf (c :: t)) (by omega)]
    simp only [fun s' => loop_fuel (E := E) k n s' [] (restOf (c :: t)) (by omega)]

/-- The fuel does not matter. -/
theorem loop_enough {E : Eval σ} {n m : Nat} {s : σ} {buf inp : Bytes} (hn : inp.length < n) (hm : inp.length < m) :
    loop F E n s buf inp = loop F E m s buf inp := by
  obtain ⟨k, rfl⟩ : ∃ k, n = inp.length + 1 + k := ⟨n - (inp.length + 1), by omega⟩
  obtain ⟨j, rfl⟩ : ∃ j, m = inp.length + 1 + j := ⟨m - (inp.length + 1), by omega⟩
  rw [loop_fuel k (inp.length + 1) s buf inp (by omega), loop_fuel j (inp.length + 1) s buf inp (by omega)]

theorem text_length : ∀ (ls : List Bytes), ls.length ≤ (text ls).length
  | [] => Nat.le_refl _
  | l :: ls => by have := text_length ls; simp [text]; omega

theorem loop_session {E : Eval σ} : ∀ (is : List Item) (s : σ) (n : Nat), (∀ i ∈ is, i.Ok F) → (typed is).length < n →
    loop F E n s [] (typed is) = script E s is
  | [], s, n, _, hn => by
    obtain ⟨m, rfl⟩ : ∃ m, n = m + 1 := ⟨n - 1, by omega⟩
    rfl
  | i :: is, s, n, h, hn => by
    have hi := h i (.head _)
    have ih := fun s' m hm => loop_session (E := E) is s' m (fun j hj => h j (.tail _ hj)) hm
    have e : typed (i :: is) = text i.lines ++ typed is := by simp [typed]
    rw [e] at hn ⊢
    have hlen := text_length i.lines
    rw [loop_enough (m := (typed is).length + 1 + i.lines.length + ((text i.lines).length - i.lines.length)) hn (by simp; omega),
      show (typed is).length + 1 + i.lines.length + ((text i.lines).length - i.lines.length) =
        ((typed is).length + 1 + ((text i.lines).length - i.lines.length)) + i.lines.length by omega]
    generalize hm : (typed is).length + 1 + ((text i.lines).length - i.lines.length) = m
    have hm' : (typed is).length < m := by omega
    obtain ⟨ls, x⟩ := i
    cases x with
    | some d =>
      have hi : Entry F ls d := hi
      obtain ⟨r, hr⟩ := hi.reads
      have := loop_lines (F := F) (E := E) (s := s) (rest := typed is) ls [] m hi.some hi.lines ((balanced_iff _).2 hi.whole)
        (fun a b hab ha hb => not_balanced (hi.first a b hab ha hb))
      rw [List.nil_append] at this
      simp only [script]
      refine this.trans ?_
      rw [runText, blank_not_read hr, hr]
      simp only [Bool.false_eq_true, if_false, ih _ m hm']
      cases E s d <;> rfl
    | none =>
      obtain ⟨l, hl, h1, h2⟩ := hi
      obtain rfl : ls = [l] := hl
      have hb : blank (text [l]) = true := by
        simp only [blank, text, List.all_append, List.all_cons, List.all_nil, List.all_eq_true, Bool.and_eq_true]
        refine ⟨fun c hc => ?_, by decide⟩
        rcases h2 c hc with h | h | h <;> subst h <;> decide
      have hn : Nested (text [l]) := by
        have : ∀ s : Bytes, blank s = true → Nested s := by
          intro s hs
          induction s with
          | nil => exact .nil
          | cons c s ih =>
            simp only [blank, List.all_cons, Bool.and_eq_true, Bool.or_eq_true, beq_iff_eq] at hs
            refine .plain ?_ (ih (by simpa [blank] using hs.2))
            rcases hs.1 with ((h | h) | h) | h <;> subst h <;> decide
        exact this _ hb
      have := loop_lines (F := F) (E := E) (s := s) (rest := typed is) [l] [] m (by simp) (by simpa using h1)
        ((balanced_iff _).2 ⟨text [l], [], by simp, hn, .none⟩)
        (fun a b hab ha hb' => by
          cases a with
          | nil => exact absurd rfl ha
          | cons x a =>
            cases a with
            | nil => simp at hab; exact absurd hab.2 hb'
            | cons y a => simp at hab)
      refine this.trans ?_
      rw [List.nil_append, runText, if_pos hb, ih s m hm']
      rfl

/-! ## C111 -/

/-- C111: what counts as a complete text: the rule by which the REPL decides whether to go on reading lines. -/
theorem c111_complete (s : Bytes) : isBalanced s = true ↔ Complete s := balanced_iff s

/-- C111: every expression typed is evaluated exactly once, in the order typed, as soon as its last line is entered, and its
value is shown; lines that do not complete an expression are continued.  Partial: every text must hold exactly one expression, in lines of
at most 4094 bytes without NUL; see the counterexamples. -/
theorem c111_session_partial (E : Eval σ) (s : σ) (is : List Item) (h : ∀ i ∈ is, i.Ok F) : repl F E s (typed is) = script E s is :=
  loop_session is s _ h (by omega)

/-- Text typed on lines whose expression is parenthesised (after a prefix such as a quotation mark or `#`) is complete with its last line and not
before, however it is broken into lines. -/
theorem entry_list {ls : List Bytes} {p s w : Bytes} {d : D} (ht : text ls = p ++ 40 :: (s ++ 41 :: (w ++ [10])))
    (hl : ∀ l ∈ ls, Line l) (hp : Nested p) (hp10 : (10 : UInt8) ∉ p) (hs : Nested s) (hw : Nested w) (hw10 : (10 : UInt8) ∉ w)
    (hr : ∃ r, parse F (text ls) = .ok d r) : Entry F ls d := by
  refine ⟨?_, hl, ⟨text ls, [], by simp, ?_, .none⟩, ?_, hr⟩
  · rintro rfl
    simp [text] at ht
  · rw [ht]
    exact hp.append (.nest hs (hw.append (.plain (by decide) .nil)))
  · intro a b hab ha hb hc
    have hsplit : text a ++ text b = p ++ 40 :: (s ++ 41 :: (w ++ [10])) := by rw [← text_append, ← hab, ht]
    have hnl : ∃ x, text a = x ++ [10] := by
      have : ∀ a : List Bytes, a ≠ [] → ∃ x, text a = x ++ [10] := by
        intro a
        induction a with
        | nil => intro h; exact absurd rfl h
        | cons l a ih =>
          intro _
          cases a with
          | nil => exact ⟨l, rfl⟩
          | cons l2 a =>
            obtain ⟨x, hx⟩ := ih (by simp)
            exact ⟨l ++ 10 :: x, by simp [text] at hx ⊢; exact hx⟩
      exact this a ha
    obtain ⟨x, hx⟩ := hnl
    obtain ⟨y, hy, hbl⟩ : ∃ y, text b = y ∧ y ≠ [] := ⟨_, rfl, text_ne hb⟩
    rw [hx, hy] at hsplit
    have hbal := (balanced_iff _).2 hc
    rw [hx] at hbal
    -- the prefix `p` lies inside
    rcases List.append_eq_append_iff.1 hsplit with ⟨u, hu, hv⟩ | ⟨u, hu, hv⟩
    · exact hp10 (by rw [hu]; simp)
    · cases u with
      | nil => exact hp10 (by rw [List.append_nil] at hu; rw [← hu]; simp)
      | cons c u =>
        rw [List.cons_append] at hv
        injection hv with hc40 hv
        subst hc40
        rw [hu] at hbal
        have hopen : ∀ v', s ≠ u ++ v' := by
          intro v' hv'
          have h1 := open_prefix hs hv'
          have h2 : isBalanced (p ++ 40 :: u) = isBalanced (40 :: u) := by
            unfold isBalanced
            rw [scan_append, show scan {} p = some (at_ 0) from scan_nested hp 0]
            rfl
          rw [h2, h1] at hbal
          cases hbal
        rcases List.append_eq_append_iff.1 hv with ⟨v, hv1, hv2⟩ | ⟨v, hv1, hv2⟩
        · cases v with
          | nil => exact hopen [] (by simpa using hv1.symm)
          | cons c v =>
            rw [List.cons_append] at hv2
            injection hv2 with hc41 hv2
            have hlast : ((p ++ 40 :: u).getLast?) = some 10 := by rw [← hu]; simp
            rw [hv1] at hlast
            rcases List.eq_nil_or_concat v with rfl | ⟨v', z, rfl⟩
            · subst hc41
              rw [show p ++ 40 :: (s ++ [41]) = (p ++ 40 :: s) ++ [41] by simp, List.getLast?_concat] at hlast
              cases hlast
            · have hz : z = 10 := by
                have : (p ++ 40 :: (s ++ c :: v'.concat z)).getLast? = some z := by
                  rw [List.concat_eq_append, show p ++ 40 :: (s ++ c :: (v' ++ [z])) = (p ++ 40 :: (s ++ c :: v')) ++ [z] by simp,
                    List.getLast?_concat]
                rw [this] at hlast
                exact Option.some.inj hlast
              subst hz
              rcases List.eq_nil_or_concat y with rfl | ⟨y', z, rfl⟩
              · exact hbl rfl
              · have e : w ++ [10] = (v' ++ 10 :: y') ++ [z] := by rw [hv2]; simp
                have := List.append_inj_left' e rfl
                exact hw10 (by rw [this]; simp)
        · exact hopen v hv1

/-- C111: a parenthesised expression (perhaps after a prefix on its first line, such as a quotation mark) may be broken into lines anywhere: it is
evaluated once, after the last line. -/
theorem c111_multiline (E : Eval σ) (s : σ) {ls : List Bytes} {p q w : Bytes} {d : D} (ht : text ls = p ++ 40 :: (q ++ 41 :: (w ++ [10])))
    (hl : ∀ l ∈ ls, Line l) (hp : Nested p) (hp10 : (10 : UInt8) ∉ p) (hq : Nested q) (hw : Nested w) (hw10 : (10 : UInt8) ∉ w)
    (hr : ∃ r, parse F (text ls) = .ok d r) :
    repl F E s (text ls) = .prompt false :: (List.replicate (ls.length - 1) (.prompt true) ++
      .echo d :: match E s d with
        | none => [.ended]
        | some (v, _) => [.value v, .prompt false, .bye]) := by
  have := c111_session_partial (F := F) E s [⟨ls, some d⟩] (by
    intro i hi
    obtain rfl : i = ⟨ls, some d⟩ := by simpa using hi
    exact entry_list ht hl hp hp10 hq hw hw10 hr)
  simp only [typed, List.flatMap_cons, List.flatMap_nil, List.append_nil] at this
  rw [this, script]
  cases h : E s d with
  | none => simp only [h]
  | some x => obtain ⟨v, s'⟩ := x; simp only [h, script]

/-- C111: written data, one per line, are each evaluated once, in order (the data as in C67, of at most 4094 bytes). -/
theorem c111_data_partial (E : Eval σ) (s : σ) (ds : List D) (h : ∀ d ∈ ds, Readable .datum d ∧ (print F true d).length ≤ 4094) :
    ∃ ds' : List D, ds'.map norm = ds.map norm ∧
      repl F E s (text (ds.map (print F true))) = script E s (ds'.map fun d => ⟨[[]], some d⟩) := by
  have hex : ∀ ds : List D, (∀ d ∈ ds, Readable .datum d ∧ (print F true d).length ≤ 4094) → ∃ is : List Item, (∀ i ∈ is, i.Ok F) ∧
      typed is = text (ds.map (print F true)) ∧ ∃ ds' : List D, ds'.map norm = ds.map norm ∧
        ∀ s, script E s is = script E s (ds'.map fun d => ⟨[[]], some d⟩) := by
    intro ds
    induction ds with
    | nil => intro _; exact ⟨[], by simp, rfl, [], rfl, fun _ => rfl⟩
    | cons d ds ih =>
      intro h
      obtain ⟨is, h1, h2, ds', h3, h4⟩ := ih fun d hd => h d (.tail _ hd)
      obtain ⟨hr, hl⟩ := h d (.head _)
      have hc := (clean_pr (F := F) d).1 hr ⟨false, false⟩
      obtain ⟨d', e1, e2⟩ := c67_written_partial (F := F) (rest := [10]) hr (.inr ⟨10, [], rfl, by decide⟩)
      have hline : Line (print F true d) := ⟨hl, fun h => (hc.2 _ h).1 rfl, fun h => (hc.2 _ h).2 rfl⟩
      refine ⟨⟨[print F true d], some d'⟩ :: is, ?_, ?_, d' :: ds', by simp [e2, h3], ?_⟩
      · intro i hi
        rcases List.mem_cons.1 hi with rfl | hi
        · refine (⟨by simp, by simpa using hline, ⟨print F true d ++ [10], [], by simp [text], hc.1.append (.plain (by decide) .nil), .none⟩, ?_, [], ?_⟩ :
            Entry F [print F true d] d')
          · intro p q hpq hp hq
            cases p with
            | nil => exact absurd rfl hp
            | cons x p =>
              cases p with
              | nil => simp at hpq; exact absurd hpq.2 hq
              | cons y p => simp at hpq
          · show parse F (print F true d ++ [10]) = _
            unfold parse
            rw [e1]
            rfl
        · exact h1 i hi
      · simp [typed, text] at h2 ⊢
        exact h2
      · intro s
        simp only [script, List.map_cons, List.length_cons, List.length_nil, Nat.sub_self, List.replicate_zero, List.nil_append]
        cases E s d' with
        | none => rfl
        | some x => simp only [h4]
  obtain ⟨is, h1, h2, ds', h3, h4⟩ := hex ds h
  exact ⟨ds', h3, by rw [← h2, c111_session_partial E s is h1, h4]⟩

/-- C111: for every input the loop ends: with the end of the input, or because the process ends. -/
theorem c111_ends (E : Eval σ) (s : σ) (inp : Bytes) :
    ∃ es last, repl F E s inp = es ++ [last] ∧ last ∈ [Event.bye, .parseError, .ended, .undefined] := by
  have hcons : ∀ (x : List Event) (e : Event), (∃ es last, x = es ++ [last] ∧ last ∈ [Event.bye, .parseError, .ended, .undefined]) →
      ∃ es last, e :: x = es ++ [last] ∧ last ∈ [Event.bye, .parseError, .ended, .undefined] := by
    rintro x e ⟨es, last, rfl, h⟩
    exact ⟨e :: es, last, rfl, h⟩
  have key : ∀ (n : Nat) (s : σ) (buf inp : Bytes), inp.length < n →
      ∃ es last, loop F E n s buf inp = es ++ [last] ∧ last ∈ [Event.bye, .parseError, .ended, .undefined] := by
    intro n
    induction n with
    | zero => intro s buf inp h; omega
    | succ n ih =>
      intro s buf inp h
      cases inp with
      | nil => exact ⟨[.prompt (!buf.isEmpty)], .bye, rfl, by simp⟩
      | cons c t =>
        rw [loop_cons]
        apply hcons
        have hs := restOf_short (c := c) (t := t)
        have hbody : ∃ es last, (if isBalanced (buf ++ cstr (fgets 4095 (c :: t)).1) then
            runText F E s (buf ++ cstr (fgets 4095 (c :: t)).1) fun s' => loop F E n s' [] (restOf (c :: t))
            else loop F E n s (buf ++ cstr (fgets 4095 (c :: t)).1) (restOf (c :: t))) = es ++ [last] ∧
            last ∈ [Event.bye, .parseError, .ended, .undefined] := by
          split
          · unfold runText
            split
            · exact ih _ _ _ (by omega)
            · split
              · apply hcons
                split
                · exact hcons _ _ (ih _ _ _ (by omega))
                · exact ⟨[], _, rfl, by simp⟩
              · exact ⟨[], _, rfl, by simp⟩
              · exact ⟨[], _, rfl, by simp⟩
              · exact ⟨[], _, rfl, by simp⟩
          · exact ih _ _ _ (by omega)
        split
        · exact hcons _ _ hbody
        · exact hbody
  exact key _ s [] inp (by omega)

/-- C111 (violation): after a line with an unmatched closing parenthesis the REPL never evaluates anything again, whatever is typed. -/
theorem c111_stuck_counterexample (E : Eval σ) (s : σ) (rest : Bytes) :
    ∀ e ∈ repl F E s (41 :: 10 :: rest), e = .prompt false ∨ e = .prompt true ∨ e = .warning ∨ e = .bye := by
  have hmono : ∀ a b : Bytes, scan {} a = none → scan {} (a ++ b) = none := by
    intro a b h
    rw [scan_append, h]; rfl
  have key : ∀ (n : Nat) (s : σ) (buf inp : Bytes), scan {} buf = none →
      ∀ e ∈ loop F E n s buf inp, e = .prompt false ∨ e = .prompt true ∨ e = .warning ∨ e = .bye := by
    intro n
    induction n with
    | zero => intro s buf inp _ e he; cases he
    | succ n ih =>
      intro s buf inp hb e he
      have hp : ∀ b : Bool, (Event.prompt b = .prompt false ∨ Event.prompt b = .prompt true ∨ Event.prompt b = .warning ∨ Event.prompt b = .bye) := by
        intro b; cases b <;> simp
      cases inp with
      | nil =>
        simp only [loop, List.mem_cons, List.not_mem_nil, or_false] at he
        rcases he with rfl | rfl
        · exact hp _
        · simp
      | cons c t =>
        rw [loop_cons] at he
        have hnb : isBalanced (buf ++ cstr (fgets 4095 (c :: t)).1) = false := by
          rw [isBalanced, hmono _ _ hb]
        rw [hnb] at he
        simp only [Bool.false_eq_true, if_false, List.mem_cons, List.mem_append] at he
        rcases he with rfl | he | he
        · exact hp _
        · split at he
          · simp at he; simp [he]
          · cases he
        · exact ih _ _ _ (hmono _ _ hb) e he
  intro e he
  have hl := loop_line (F := F) (E := E) (n := (41 :: 10 :: rest).length) (s := s) (buf := []) (l := [41]) (rest := rest)
    ⟨by simp, by decide, by decide⟩
  have he' : e ∈ loop F E ((41 :: 10 :: rest).length + 1) s [] ([41] ++ 10 :: rest) := he
  rw [hl] at he'
  have hnb : isBalanced ([] ++ ([41] ++ [10])) = false := by decide
  rw [hnb] at he'
  simp only [Bool.false_eq_true, if_false, List.mem_cons] at he'
  rcases he' with rfl | he'
  · simp
  · exact key _ _ _ _ (by decide) e he'

/-- An evaluator for the examples: it counts the expressions. -/
def countEval : Eval Nat := fun n _ => some ([48 + n.toUInt8], n + 1)

/-- C111 (violation): a comment on a line of its own, two expressions on one line, or a string literal over two lines end the process. -/
theorem c111_counterexample :
    repl Demo.F0 countEval 0 (asc "; hello\n(f)\n") = [.prompt false, .parseError] ∧
    repl Demo.F0 countEval 0 (asc "(f) (g)\n") = [.prompt false, .parseError] ∧
    repl Demo.F0 countEval 0 (asc "\"a\nb\"\n") = [.prompt false, .parseError] := by
  refine ⟨?_, ?_, ?_⟩ <;> decide +kernel

/-- C111 (violation): a line that contains a NUL makes the REPL drop the line that follows. -/
theorem c111_nul_counterexample :
    repl Demo.F0 countEval 0 ([97, 0, 10] ++ asc "(f)\n(g)\n") =
      [.prompt false, .warning, .echo (.sym [97]), .value [48], .prompt false, .echo (.pair (.sym [103]) .nil), .value [49], .prompt false, .bye] := by
  decide +kernel

/-- The hypotheses are met by `(define x ; (a` / `2)`, a blank line, and `'a`. -/
example : (∀ i ∈ [(⟨[asc "(define x ; (a", asc "2)"], some (.pair (.sym (asc "define")) (.pair (.sym (asc "x")) (.pair (.num 2) .nil)))⟩ : Item),
      ⟨[asc " "], none⟩], i.Ok Demo.F0) := by
  intro i hi
  simp only [List.mem_cons, List.not_mem_nil, or_false] at hi
  rcases hi with rfl | rfl
  · refine entry_list (p := []) (s := asc "define x ; (a\n2") (w := []) (by decide +kernel) ?_ .nil (by decide) ?_ .nil (by decide) ⟨[], by decide +kernel⟩
    · intro l hl
      simp only [List.mem_cons, List.not_mem_nil, or_false] at hl
      rcases hl with rfl | rfl <;> exact ⟨by decide +kernel, by decide +kernel, by decide +kernel⟩
    · have e : asc "define x ; (a\n2" = asc "define x " ++ 59 :: (asc " (a" ++ 10 :: [50]) := by decide +kernel
      rw [e]
      refine Nested.append (Clean.of_mem (by decide +kernel)).1 (.comment ?_ (.plain (by decide) .nil))
      have e2 : asc " (a" = [32, 40, 97] := by decide +kernel
      rw [e2]
      exact .chr (by decide) (by decide) (.chr (by decide) (by decide) (.chr (by decide) (by decide) .nil))
  · exact ⟨asc " ", rfl, ⟨by decide +kernel, by decide +kernel, by decide +kernel⟩, by decide +kernel⟩

/-- The session runs as the script says. -/
example : repl Demo.F0 countEval 0 (asc "(f\n)\n\n'a\n") =
    [.prompt false, .prompt true, .echo (.pair (.sym (asc "f")) .nil), .value [48], .prompt false, .prompt false,
      .echo (.pair (.sym (asc "quote")) (.pair (.sym (asc "a")) .nil)), .value [49], .prompt false, .bye] := by
  decide +kernel

/-- Written data meet the hypotheses of `c111_data_partial`. -/
example : Readable .datum (.pair (.chr 59) (.pair (.str (asc "a;(b")) (.pair (.chr 40) .nil))) := by
  refine ⟨(by decide : (59 : UInt8) ≠ 0), ⟨?_, (by decide : (40 : UInt8) ≠ 0), trivial⟩, ?_⟩
  · show ∀ c ∈ asc "a;(b", StrByte c
    unfold StrByte
    decide +kernel
  · rintro (h | h | h | h) <;> cases h

end Pscm.Repl
