import Verif.Repl
import Verif.PortRead
/-! # Lemmas for C111: what `is_balanced` accepts -/
namespace Pscm.Repl
open Rd
open Port (StrBody)

/-- The inside of a comment: no newline except after a backslash. -/
inductive CommentBody : Bytes → Prop
  | nil : CommentBody []
  | chr {c b} : c ≠ 10 → c ≠ 92 → CommentBody b → CommentBody (c :: b)
  | esc {c b} : CommentBody b → CommentBody (92 :: c :: b)

/-- Text with matching parentheses, complete string literals and complete comments; a backslash takes the meaning of the next byte away. -/
inductive Nested : Bytes → Prop
  | nil : Nested []
  | plain {c t} : c ∉ [40, 41, 34, 59, 92] → Nested t → Nested (c :: t)
  | esc {c t} : Nested t → Nested (92 :: c :: t)
  | str {b t} : StrBody b → Nested t → Nested (34 :: (b ++ 34 :: t))
  | comment {b t} : CommentBody b → Nested t → Nested (59 :: (b ++ 10 :: t))
  | nest {s t} : Nested s → Nested t → Nested (40 :: (s ++ 41 :: t))

/-- What may follow at the end: nothing, a lone backslash, an unfinished string literal or comment. -/
inductive Dangling : Bytes → Prop
  | none : Dangling []
  | slash : Dangling [92]
  | str {b} : StrBody b → Dangling (34 :: b)
  | strSlash {b} : StrBody b → Dangling (34 :: (b ++ [92]))
  | comment {b} : CommentBody b → Dangling (59 :: b)
  | commentSlash {b} : CommentBody b → Dangling (59 :: (b ++ [92]))

theorem Nested.append {s t : Bytes} (hs : Nested s) (ht : Nested t) : Nested (s ++ t) := by
  induction hs with
  | nil => exact ht
  | plain h _ ih => exact .plain h ih
  | esc _ ih => exact .esc ih
  | str h _ ih => simpa using Nested.str h ih
  | comment h _ ih => simpa using Nested.comment h ih
  | nest h _ _ ih => simpa using Nested.nest h ih

/-- The scanner outside of strings and comments at depth `d`. -/
abbrev at_ (d : Nat) : Scan := { depth := d }

theorem scan_append (s : Scan) (a b : Bytes) : scan s (a ++ b) = (scan s a).bind fun s' => scan s' b := by
  induction a generalizing s with
  | nil => rfl
  | cons c a ih =>
    rw [List.cons_append, scan, scan]
    cases scanStep s c with
    | none => rfl
    | some s' => exact ih s'

theorem step_plain {d : Nat} {c : UInt8} (h : c ∉ ([40, 41, 34, 59, 92] : List UInt8)) : scanStep (at_ d) c = some (at_ d) := by
  simp only [List.mem_cons, List.not_mem_nil, or_false, not_or] at h
  simp [scanStep, h]

theorem scan_strBody {b : Bytes} (h : StrBody b) (d : Nat) :
    scan { depth := d, inString := true } b = some { depth := d, inString := true } := by
  induction h with
  | nil => rfl
  | chr h1 h2 _ ih => rw [scan, show scanStep _ _ = some { depth := d, inString := true } by simp [scanStep, h1, h2]]; exact ih
  | esc _ ih =>
    rw [scan, show scanStep _ _ = some { depth := d, inString := true, escaped := true } by simp [scanStep]]
    show scan _ (_ :: _) = _
    rw [scan, show scanStep _ _ = some { depth := d, inString := true } by simp [scanStep]]
    exact ih

theorem scan_commentBody {b : Bytes} (h : CommentBody b) (d : Nat) :
    scan { depth := d, inComment := true } b = some { depth := d, inComment := true } := by
  induction h with
  | nil => rfl
  | chr h1 h2 _ ih => rw [scan, show scanStep _ _ = some { depth := d, inComment := true } by simp [scanStep, h1, h2]]; exact ih
  | esc _ ih =>
    rw [scan, show scanStep _ _ = some { depth := d, inComment := true, escaped := true } by simp [scanStep]]
    show scan _ (_ :: _) = _
    rw [scan, show scanStep _ _ = some { depth := d, inComment := true } by simp [scanStep]]
    exact ih

theorem scan_nested {s : Bytes} (h : Nested s) : ∀ d, scan (at_ d) s = some (at_ d) := by
  induction h with
  | nil => intro d; rfl
  | plain h _ ih => intro d; rw [scan, step_plain h]; exact ih d
  | esc _ ih =>
    intro d
    rw [scan, show scanStep (at_ d) 92 = some { depth := d, escaped := true } by rfl]
    show scan _ (_ :: _) = _
    rw [scan, show scanStep _ _ = some (at_ d) by simp [scanStep]]
    exact ih d
  | str hb _ ih =>
    intro d
    rw [scan, show scanStep (at_ d) 34 = some { depth := d, inString := true } by rfl]
    show scan _ (_ ++ _) = _
    rw [scan_append, scan_strBody hb]
    exact ih d
  | comment hb _ ih =>
    intro d
    rw [scan, show scanStep (at_ d) 59 = some { depth := d, inComment := true } by rfl]
    show scan _ (_ ++ _) = _
    rw [scan_append, scan_commentBody hb]
    exact ih d
  | nest _ _ ih1 ih2 =>
    intro d
    rw [scan, show scanStep (at_ d) 40 = some (at_ (d + 1)) by rfl]
    show scan _ (_ ++ _) = _
    rw [scan_append, ih1]
    exact ih2 d

theorem scan_dangling {e : Bytes} (h : Dangling e) (d : Nat) : ∃ s, scan (at_ d) e = some s ∧ s.depth = d := by
  cases h with
  | none => exact ⟨_, rfl, rfl⟩
  | slash => exact ⟨_, rfl, rfl⟩
  | str h => exact ⟨_, (show scan { depth := d, inString := true } _ = _ from scan_strBody h d), rfl⟩
  | strSlash h =>
    refine ⟨{ depth := d, inString := true, escaped := true }, ?_, rfl⟩
    show scan { depth := d, inString := true } (_ ++ _) = _
    rw [scan_append, scan_strBody h]; rfl
  | comment h => exact ⟨_, (show scan { depth := d, inComment := true } _ = _ from scan_commentBody h d), rfl⟩
  | commentSlash h =>
    refine ⟨{ depth := d, inComment := true, escaped := true }, ?_, rfl⟩
    show scan { depth := d, inComment := true } (_ ++ _) = _
    rw [scan_append, scan_commentBody h]; rfl

/-- Text that closes `d` open parentheses. -/
inductive Closes : Nat → Bytes → Prop
  | last {b e} : Nested b → Dangling e → Closes 0 (b ++ e)
  | next {d b s} : Nested b → Closes d s → Closes (d + 1) (b ++ 41 :: s)

theorem Closes.prefix {d : Nat} {s p : Bytes} (hp : Nested p) (h : Closes d s) : Closes d (p ++ s) := by
  cases h with
  | last hb he => rw [← List.append_assoc]; exact .last (hp.append hb) he
  | next hb hs => rw [← List.append_assoc]; exact .next (hp.append hb) hs

/-- A text after an opening quotation mark. -/
theorem string_split : ∀ (t : Bytes), (∃ b u, StrBody b ∧ t = b ++ 34 :: u) ∨ StrBody t ∨ ∃ b, StrBody b ∧ t = b ++ [92]
  | [] => .inr (.inl .nil)
  | [c] => by
    by_cases h1 : c = 34
    · subst h1; exact .inl ⟨[], [], .nil, rfl⟩
    · by_cases h2 : c = 92
      · subst h2; exact .inr (.inr ⟨[], .nil, rfl⟩)
      · exact .inr (.inl (.chr h1 h2 .nil))
  | c :: c2 :: t => by
    by_cases h1 : c = 34
    · subst h1; exact .inl ⟨[], c2 :: t, .nil, rfl⟩
    · by_cases h2 : c = 92
      · subst h2
        rcases string_split t with ⟨b, u, hb, rfl⟩ | h | ⟨b, hb, rfl⟩
        · exact .inl ⟨_, u, .esc (c := c2) hb, rfl⟩
        · exact .inr (.inl (.esc h))
        · exact .inr (.inr ⟨_, .esc (c := c2) hb, rfl⟩)
      · rcases string_split (c2 :: t) with ⟨b, u, hb, e⟩ | h | ⟨b, hb, e⟩
        · exact .inl ⟨_, u, .chr h1 h2 hb, by rw [e]; rfl⟩
        · exact .inr (.inl (.chr h1 h2 h))
        · exact .inr (.inr ⟨_, .chr h1 h2 hb, by rw [e]; rfl⟩)

/-- A text after a semicolon. -/
theorem comment_split : ∀ (t : Bytes), (∃ b u, CommentBody b ∧ t = b ++ 10 :: u) ∨ CommentBody t ∨ ∃ b, CommentBody b ∧ t = b ++ [92]
  | [] => .inr (.inl .nil)
  | [c] => by
    by_cases h1 : c = 10
    · subst h1; exact .inl ⟨[], [], .nil, rfl⟩
    · by_cases h2 : c = 92
      · subst h2; exact .inr (.inr ⟨[], .nil, rfl⟩)
      · exact .inr (.inl (.chr h1 h2 .nil))
  | c :: c2 :: t => by
    by_cases h1 : c = 10
    · subst h1; exact .inl ⟨[], c2 :: t, .nil, rfl⟩
    · by_cases h2 : c = 92
      · subst h2
        rcases comment_split t with ⟨b, u, hb, rfl⟩ | h | ⟨b, hb, rfl⟩
        · exact .inl ⟨_, u, .esc (c := c2) hb, rfl⟩
        · exact .inr (.inl (.esc h))
        · exact .inr (.inr ⟨_, .esc (c := c2) hb, rfl⟩)
      · rcases comment_split (c2 :: t) with ⟨b, u, hb, e⟩ | h | ⟨b, hb, e⟩
        · exact .inl ⟨_, u, .chr h1 h2 hb, by rw [e]; rfl⟩
        · exact .inr (.inl (.chr h1 h2 h))
        · exact .inr (.inr ⟨_, .chr h1 h2 hb, by rw [e]; rfl⟩)

theorem closes_of_scan : ∀ (n : Nat) (t : Bytes), t.length ≤ n → ∀ (d : Nat) (s : Scan), scan (at_ d) t = some s → s.depth = 0 → Closes d t := by
  intro n
  induction n with
  | zero =>
    intro t hl d s h hd
    obtain rfl : t = [] := List.length_eq_zero_iff.1 (by omega)
    cases h
    obtain rfl : d = 0 := hd
    exact .last (b := []) .nil .none
  | succ n ih =>
    intro t hl d s h hd
    cases t with
    | nil =>
      cases h
      obtain rfl : d = 0 := hd
      exact .last (b := []) .nil .none
    | cons c t =>
      have hl2 : t.length ≤ n := by simpa using hl
      by_cases h92 : c = 92
      · subst h92
        cases t with
        | nil =>
          cases h
          obtain rfl : d = 0 := hd
          exact .last (b := []) .nil .slash
        | cons x t =>
          have h' : scan (at_ d) t = some s := by
            have e : scan (at_ d) (92 :: x :: t) = scan (at_ d) t := by
              rw [scan, show scanStep (at_ d) 92 = some { depth := d, escaped := true } by rfl]
              show scan _ (_ :: _) = _
              rw [scan, show scanStep _ _ = some (at_ d) by simp [scanStep]]
            rw [← e]; exact h
          exact (ih t (by simp at hl; omega) d s h' hd).prefix (p := [92, x]) (.esc .nil)
      by_cases h34 : c = 34
      · subst h34
        have h' : scan { depth := d, inString := true } t = some s := h
        rcases string_split t with ⟨b, u, hb, rfl⟩ | hb | ⟨b, hb, rfl⟩
        · rw [scan_append, scan_strBody hb] at h'
          have h'' : scan (at_ d) u = some s := h'
          have := (ih u (by simp at hl; omega) d s h'' hd).prefix (p := 34 :: (b ++ 34 :: [])) (.str hb .nil)
          simpa using this
        · rw [scan_strBody hb] at h'
          cases h'
          obtain rfl : d = 0 := hd
          exact .last (b := []) .nil (.str hb)
        · rw [scan_append, scan_strBody hb] at h'
          have : some { depth := d, inString := true, escaped := true } = some s := h'
          cases this
          obtain rfl : d = 0 := hd
          exact .last (b := []) .nil (.strSlash hb)
      by_cases h59 : c = 59
      · subst h59
        have h' : scan { depth := d, inComment := true } t = some s := h
        rcases comment_split t with ⟨b, u, hb, rfl⟩ | hb | ⟨b, hb, rfl⟩
        · rw [scan_append, scan_commentBody hb] at h'
          have h'' : scan (at_ d) u = some s := h'
          have := (ih u (by simp at hl; omega) d s h'' hd).prefix (p := 59 :: (b ++ 10 :: [])) (.comment hb .nil)
          simpa using this
        · rw [scan_commentBody hb] at h'
          cases h'
          obtain rfl : d = 0 := hd
          exact .last (b := []) .nil (.comment hb)
        · rw [scan_append, scan_commentBody hb] at h'
          have : some { depth := d, inComment := true, escaped := true } = some s := h'
          cases this
          obtain rfl : d = 0 := hd
          exact .last (b := []) .nil (.commentSlash hb)
      by_cases h40 : c = 40
      · subst h40
        have h' : scan (at_ (d + 1)) t = some s := h
        cases ih t hl2 (d + 1) s h' hd with
        | next hb hs =>
          have := hs.prefix (Nested.nest hb .nil)
          simpa using this
      by_cases h41 : c = 41
      · subst h41
        cases d with
        | zero => cases h
        | succ d =>
          have h' : scan (at_ d) t = some s := h
          exact .next (b := []) .nil (ih t hl2 d s h' hd)
      · have hc : c ∉ ([40, 41, 34, 59, 92] : List UInt8) := by simp [h92, h34, h59, h40, h41]
        have h' : scan (at_ d) t = some s := by
          rw [scan, step_plain hc] at h; exact h
        exact (ih t hl2 d s h' hd).prefix (p := [c]) (.plain hc .nil)

/-! ## Prefixes of nested text -/

theorem step_shift {s s' : Scan} {c : UInt8} (h : scanStep s c = some s') (k : Nat) :
    scanStep { s with depth := s.depth + k } c = some { s' with depth := s'.depth + k } := by
  obtain ⟨d, a, b, e⟩ := s
  simp only [scanStep] at h ⊢
  cases b
  · simp only [Bool.false_eq_true, if_false] at h ⊢
    by_cases h92 : (c == 92) = true
    · rw [if_pos h92] at h ⊢; cases h; rfl
    · rw [if_neg h92] at h ⊢
      cases e
      · simp only [Bool.false_eq_true, if_false] at h ⊢
        by_cases h34 : (c == 34) = true
        · rw [if_pos h34] at h ⊢; cases h; rfl
        · rw [if_neg h34] at h ⊢
          cases a
          · simp only [Bool.false_eq_true, if_false] at h ⊢
            by_cases h59 : (c == 59) = true
            · rw [if_pos h59] at h ⊢; cases h; rfl
            · rw [if_neg h59] at h ⊢
              by_cases h40 : (c == 40) = true
              · rw [if_pos h40] at h ⊢; cases h; simp [Nat.add_right_comm]
              · rw [if_neg h40] at h ⊢
                by_cases h41 : (c == 41) = true
                · rw [if_pos h41] at h ⊢
                  cases d with
                  | zero => cases h
                  | succ d =>
                    cases h
                    rw [Nat.add_right_comm]
                · rw [if_neg h41] at h ⊢; cases h; rfl
          · cases h; rfl
      · simp only [if_true] at h ⊢
        by_cases h10 : (c == 10) = true
        · rw [if_pos h10] at h ⊢; cases h; rfl
        · rw [if_neg h10] at h ⊢; cases h; rfl
  · cases h; rfl

theorem scan_shift (k : Nat) : ∀ (t : Bytes) (s s' : Scan), scan s t = some s' →
    scan { s with depth := s.depth + k } t = some { s' with depth := s'.depth + k }
  | [], s, s', h => by cases h; rfl
  | c :: t, s, s', h => by
    rw [scan] at h ⊢
    cases he : scanStep s c with
    | none => rw [he] at h; cases h
    | some s1 =>
      rw [he] at h
      rw [step_shift he]
      exact scan_shift k t s1 s' h

theorem open_prefix {s u v : Bytes} (h : Nested s) (e : s = u ++ v) : isBalanced (40 :: u) = false := by
  have h0 := scan_nested h 0
  rw [e, scan_append] at h0
  cases hu : scan (at_ 0) u with
  | none => rw [hu] at h0; cases h0
  | some s' =>
    have := scan_shift 1 u _ _ hu
    have e1 : scan {} (40 :: u) = some { s' with depth := s'.depth + 1 } := this
    rw [isBalanced, e1]
    simp

end Pscm.Repl
