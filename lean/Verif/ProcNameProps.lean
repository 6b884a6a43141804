import Verif.ProcName
import Mathlib.Data.List.Induction
/-!
# C146: the name of a procedure is the name of its first definition
-/
namespace Pscm
open PN
open Pscm.Ev (V Name)

/-! ## Specification -/

namespace PN

/-- `key` is `(f . params)`, or `((... (f . params) ...) . params)`: what follows `define` in a definition of the procedure `f`. -/
inductive Defines (f : Name) : V → Prop
  | head {ps} : Defines f (.pair (.sym f) ps)
  | curried {k ps} : Defines f k → Defines f (.pair k ps)

/-- `Made es n`: the events make `n` procedures. -/
inductive Made : List Event → Nat → Prop
  | nil : Made [] 0
  | lambda {es n} : Made es n → Made (es ++ [.lambda]) (n + 1)
  | defun {es n f key body} : Made es n → Defines f key → Made (es ++ [.defun key body]) (n + 1)
  | defunBad {es n key body} : Made es n → (∀ f, ¬ Defines f key) → Made (es ++ [.defun key body]) n
  | define {es n x v} : Made es n → Made (es ++ [.define x v]) n
  | set {es n x v} : Made es n → Made (es ++ [.set x v]) n
  | ask {es n v} : Made es n → Made (es ++ [.ask v]) n

/-- The event, coming after the events `es`, defines the name `x` for the procedure `a`: `(define x e)` where the value of `e` is the procedure `a`, or
`(define (x ...) ...)` that makes it. -/
def Names (es : List Event) (e : Event) (x : Name) (a : Nat) : Prop :=
  e = .define x (.proc a) ∨ ∃ key body, e = .defun key body ∧ Defines x key ∧ Made es a

/-- A program can only use a procedure that has been made. -/
def Possible (es : List Event) : Prop := ∀ pre x a post n, es = pre ++ .define x (.proc a) :: post → Made pre n → a < n

/-- The first definition of procedure `a` in the history is one of `x`. -/
def FirstName (es : List Event) (a : Nat) (x : Name) : Prop :=
  ∃ pre e post, es = pre ++ e :: post ∧ Names pre e x a ∧ ∀ pre' e' post' y, pre = pre' ++ e' :: post' → ¬ Names pre' e' y a

/-- No event of the history is a definition of procedure `a`. -/
def NoName (es : List Event) (a : Nat) : Prop := ∀ pre e post y, es = pre ++ e :: post → ¬ Names pre e y a

/-- The answer of `(procedure-name v)` after the history. -/
def asked (es : List Event) (v : Value) : Ans := (step (run [] es) (.ask v)).2

end PN

/-! ## Proof -/

theorem PN.curry_defines {key body : V} {f : Name} : Defines f key → ∃ args b, Pscm.Ev.curry key body = some (f, args, b) := by
  intro h
  induction h generalizing body with
  | head => exact ⟨_, _, rfl⟩
  | @curried k ps hk ih =>
    cases hk with
    | head => exact ih
    | curried _ => exact ih

theorem PN.defines_curry {key body args b : V} {f : Name} (h : Pscm.Ev.curry key body = some (f, args, b)) : Defines f key := by
  induction key generalizing body with
  | pair k ps ih _ =>
    cases k with
    | sym g => cases h; exact .head
    | pair _ _ => exact .curried (ih h)
    | _ => cases h
  | _ => cases h

theorem PN.defines_fun {key : V} {f g : Name} (hf : Defines f key) (hg : Defines g key) : f = g := by
  obtain ⟨_, _, e1⟩ := curry_defines (body := .nil) hf
  obtain ⟨_, _, e2⟩ := curry_defines (body := .nil) hg
  rw [e1] at e2
  cases e2
  rfl

theorem PN.run_snoc (h : Heap) (es : List Event) (e : Event) : run h (es ++ [e]) = (step (run h es) e).1 := by
  induction es generalizing h with
  | nil => rfl
  | cons a es ih => exact ih _

theorem PN.nameIfNone_length (h : Heap) (v : Value) (x : Name) : (nameIfNone h v x).length = h.length := by
  unfold nameIfNone
  repeat' split
  all_goals simp

theorem PN.made_length {es : List Event} {n : Nat} (h : Made es n) : (run [] es).length = n := by
  induction h with
  | nil => rfl
  | lambda _ ih => rw [run_snoc]; simp [step, makeProc, ih]
  | @defun es n f key body _ hd ih =>
    obtain ⟨_, _, e⟩ := curry_defines (body := body) hd
    rw [run_snoc]; simp [step, e, makeProc, nameIfNone_length, ih]
  | @defunBad es n key body _ hd ih =>
    rw [run_snoc]
    cases hc : Pscm.Ev.curry key body with
    | none => simp [step, hc, ih]
    | some q => obtain ⟨f, a, b⟩ := q; exact absurd (defines_curry hc) (hd f)
  | define _ ih => rw [run_snoc]; simp [step, nameIfNone_length, ih]
  | set _ ih => rw [run_snoc]; exact ih
  | ask _ ih => rw [run_snoc]; exact ih

theorem PN.made_total (es : List Event) : Made es (run [] es).length := by
  have key : ∀ (es : List Event), ∃ n, Made es n := by
    intro es
    induction es using List.reverseRecOn with
    | nil => exact ⟨0, .nil⟩
    | append_singleton es e ih =>
      obtain ⟨n, ih⟩ := ih
      cases e with
      | lambda => exact ⟨_, .lambda ih⟩
      | define x v => exact ⟨_, .define ih⟩
      | defun k b =>
        by_cases hd : ∃ f, Defines f k
        · obtain ⟨f, hd⟩ := hd; exact ⟨_, .defun ih hd⟩
        · exact ⟨_, .defunBad ih fun f h => hd ⟨f, h⟩⟩
      | set x v => exact ⟨_, .set ih⟩
      | ask v => exact ⟨_, .ask ih⟩
  obtain ⟨n, h⟩ := key es
  rwa [made_length h]

/-- How an event changes the object `a`. -/
theorem PN.step_get {es : List Event} {e : Event} {a : Nat} :
    ((run [] es)[a]? = none → (∃ p, (step (run [] es) e).1[a]? = some p) → (step (run [] es) e).1[a]? = some ⟨none⟩ ∧ (∀ x, ¬ Names es e x a) ∨
      ∃ x, Names es e x a ∧ (step (run [] es) e).1[a]? = some ⟨some x⟩) ∧
    (∀ x, (run [] es)[a]? = some ⟨some x⟩ → (step (run [] es) e).1[a]? = some ⟨some x⟩) ∧
    ((run [] es)[a]? = some ⟨none⟩ → (step (run [] es) e).1[a]? = some ⟨none⟩ ∧ (∀ x, ¬ Names es e x a) ∨
      ∃ x, Names es e x a ∧ (step (run [] es) e).1[a]? = some ⟨some x⟩) := by
  generalize hh : run [] es = h
  have hmade : ∀ n, Made es n → n = h.length := fun n hn => by rw [← hh, made_length hn]
  have hmade' : Made es h.length := by rw [← hh]; exact made_total es
  have lt : ∀ {p}, h[a]? = some p → a < h.length := fun hp => (List.getElem?_eq_some_iff.1 hp).1
  cases e with
  | lambda =>
    have hno : ∀ x, ¬ Names es .lambda x a := by rintro x (h | ⟨_, _, h, _⟩) <;> cases h
    refine ⟨?_, ?_, ?_⟩
    · rintro hn ⟨p, hp⟩
      have hle := List.getElem?_eq_none_iff.1 hn
      simp only [step, makeProc] at hp ⊢
      have : a = h.length := by
        have := (List.getElem?_eq_some_iff.1 hp).1
        simp at this; omega
      subst this
      exact .inl ⟨by simp, hno⟩
    · intro x hx
      simp only [step, makeProc]
      rw [List.getElem?_append_left (lt hx), hx]
    · intro hx
      refine .inl ⟨?_, hno⟩
      simp only [step, makeProc]
      rw [List.getElem?_append_left (lt hx), hx]
  | define x v =>
    have hv : (∃ b, v = .proc b) ∨ ∀ b, v ≠ .proc b := by
      cases v with
      | proc b => exact .inl ⟨b, rfl⟩
      | _ => exact .inr (by intro b h; cases h)
    rcases hv with ⟨b, rfl⟩ | hv
    · by_cases hab : b = a
      · subst hab
        refine ⟨?_, ?_, ?_⟩
        · rintro hn ⟨p, hp⟩
          simp only [step, nameIfNone, hn] at hp
          cases hp
        · intro y hy
          simp only [step, nameIfNone, hy, Option.isNone, Bool.false_eq_true, if_false]
        · intro hy
          refine .inr ⟨x, .inl rfl, ?_⟩
          simp only [step, nameIfNone, hy, Option.isNone, if_true]
          rw [List.getElem?_set_self (lt hy)]
      · have hsame : (step h (.define x (.proc b))).1[a]? = h[a]? := by
          simp only [step, nameIfNone]
          repeat' split
          all_goals first | rfl | rw [List.getElem?_set_ne hab]
        have hno : ∀ y, ¬ Names es (.define x (.proc b)) y a := by
          rintro y (h | ⟨_, _, h, _⟩)
          · cases h; exact hab rfl
          · cases h
        rw [hsame]
        exact ⟨fun hn ⟨p, hp⟩ => by (rw [hn] at hp; cases hp), fun _ h => h, fun h => .inl ⟨h, hno⟩⟩
    · have hsame : (step h (.define x v)).1 = h := by
        cases v with
        | proc b => exact absurd rfl (hv b)
        | _ => rfl
      have hno : ∀ y, ¬ Names es (.define x v) y a := by
        rintro y (h | ⟨_, _, h, _⟩)
        · cases h; exact hv a rfl
        · cases h
      rw [hsame]
      exact ⟨fun hn ⟨p, hp⟩ => by (rw [hn] at hp; cases hp), fun _ h => h, fun h => .inl ⟨h, hno⟩⟩
  | defun key body =>
    cases hc : Pscm.Ev.curry key body with
    | none =>
      have hno : ∀ y, ¬ Names es (.defun key body) y a := by
        rintro y (h | ⟨k, b, h, hd, _⟩)
        · cases h
        · cases h
          obtain ⟨_, _, e⟩ := curry_defines (body := body) hd
          rw [hc] at e; cases e
      have hsame : (step h (.defun key body)).1 = h := by simp [step, hc]
      rw [hsame]
      exact ⟨fun hn ⟨p, hp⟩ => by (rw [hn] at hp; cases hp), fun _ h => h, fun h => .inl ⟨h, hno⟩⟩
    | some q =>
      obtain ⟨f, args, b⟩ := q
      have hd := defines_curry hc
      have hnew : (step h (.defun key body)).1 = h ++ [⟨some f⟩] := by
        simp [step, hc, makeProc, nameIfNone]
      rw [hnew]
      refine ⟨?_, ?_, ?_⟩
      · rintro hn ⟨p, hp⟩
        have hle := List.getElem?_eq_none_iff.1 hn
        have : a = h.length := by
          have := (List.getElem?_eq_some_iff.1 hp).1
          simp at this; omega
        subst this
        exact .inr ⟨f, .inr ⟨key, body, rfl, hd, hmade'⟩, by simp⟩
      · intro x hx
        rw [List.getElem?_append_left (lt hx), hx]
      · intro hx
        refine .inl ⟨by rw [List.getElem?_append_left (lt hx), hx], ?_⟩
        rintro y (h | ⟨k, b', h, hd', hm⟩)
        · cases h
        · have := hmade a hm
          have := lt hx
          omega
  | set x v =>
    have hno : ∀ y, ¬ Names es (.set x v) y a := by rintro y (h | ⟨_, _, h, _⟩) <;> cases h
    exact ⟨fun hn ⟨p, hp⟩ => by (simp only [step] at hp; rw [hn] at hp; cases hp), fun _ h => h, fun h => .inl ⟨h, hno⟩⟩
  | ask v =>
    have hno : ∀ y, ¬ Names es (.ask v) y a := by rintro y (h | ⟨_, _, h, _⟩) <;> cases h
    exact ⟨fun hn ⟨p, hp⟩ => by (simp only [step] at hp; rw [hn] at hp; cases hp), fun _ h => h, fun h => .inl ⟨h, hno⟩⟩

theorem PN.possible_pre {es : List Event} {e : Event} (h : Possible (es ++ [e])) : Possible es :=
  fun pre x a post n he hm => h pre x a (post ++ [e]) n (by rw [he]; simp) hm

theorem PN.split_snoc {α : Type} {es pre post : List α} {e e' : α} (h : es ++ [e] = pre ++ e' :: post) :
    (pre = es ∧ e' = e ∧ post = []) ∨ ∃ post', post = post' ++ [e] ∧ es = pre ++ e' :: post' := by
  rcases List.eq_nil_or_concat post with rfl | ⟨p, l, rfl⟩
  · have := List.append_inj' h (by simp)
    obtain ⟨h1, h2⟩ := this
    cases h2
    exact .inl ⟨h1.symm, rfl, rfl⟩
  · rw [List.concat_eq_append] at h ⊢
    have h' : es ++ [e] = (pre ++ e' :: p) ++ [l] := by simpa using h
    have := List.append_inj' h' (by simp)
    obtain ⟨h1, h2⟩ := this
    cases h2
    exact .inr ⟨p, rfl, h1⟩

/-- An object carries the first name, if any; before it is made there is no definition of it. -/
theorem PN.name_inv {es : List Event} (hp : Possible es) (a : Nat) :
    ((run [] es)[a]? = none → NoName es a) ∧ ((run [] es)[a]? = some ⟨none⟩ → NoName es a) ∧ ∀ x, (run [] es)[a]? = some ⟨some x⟩ → FirstName es a x := by
  induction es using List.reverseRecOn with
  | nil => exact ⟨fun _ pre e post y h => by simp at h, fun h => by simp [run] at h, fun x h => by simp [run] at h⟩
  | append_singleton es e ih =>
    obtain ⟨i1, i2, i3⟩ := ih (possible_pre hp)
    obtain ⟨s1, s2, s3⟩ := step_get (es := es) (e := e) (a := a)
    have grow : NoName es a → (∀ x, ¬ Names es e x a) → NoName (es ++ [e]) a := by
      intro hn hx pre e' post y h
      rcases split_snoc h with ⟨rfl, rfl, _⟩ | ⟨post', _, h⟩
      · exact hx y
      · exact hn pre e' post' y h
    have first : NoName es a → ∀ x, Names es e x a → FirstName (es ++ [e]) a x := fun hn x hx => ⟨es, e, [], rfl, hx, fun pre' e' post' y h => hn pre' e' post' y h⟩
    have later : ∀ x, FirstName es a x → FirstName (es ++ [e]) a x := by
      rintro x ⟨pre, e', post, rfl, h1, h2⟩
      exact ⟨pre, e', post ++ [e], by simp, h1, h2⟩
    rw [run_snoc]
    cases hg : (run [] es)[a]? with
    | none =>
      refine ⟨fun hn => grow (i1 hg) ?_, fun hn => ?_, fun x hx => ?_⟩
      · rintro x (rfl | ⟨key, body, rfl, hd, hm⟩)
        · have := hp es x a [] _ rfl (made_total es)
          have := List.getElem?_eq_none_iff.1 hg
          omega
        · obtain ⟨_, _, hc⟩ := curry_defines (body := body) hd
          have := made_length hm
          subst this
          simp [step, hc, makeProc, nameIfNone] at hn
      · rcases s1 hg ⟨_, hn⟩ with ⟨_, h⟩ | ⟨x, _, h⟩
        · exact grow (i1 hg) h
        · rw [hn] at h; cases h
      · rcases s1 hg ⟨_, hx⟩ with ⟨h, _⟩ | ⟨y, hy, h⟩
        · rw [hx] at h; cases h
        · rw [hx] at h; cases h; exact first (i1 hg) _ hy
    | some p =>
      obtain ⟨q⟩ := p
      cases q with
      | none =>
        refine ⟨fun hn => ?_, fun hn => ?_, fun x hx => ?_⟩
        · rcases s3 hg with ⟨h, _⟩ | ⟨x, _, h⟩ <;> rw [hn] at h <;> cases h
        · rcases s3 hg with ⟨_, h⟩ | ⟨x, _, h⟩
          · exact grow (i2 hg) h
          · rw [hn] at h; cases h
        · rcases s3 hg with ⟨h, _⟩ | ⟨y, hy, h⟩
          · rw [hx] at h; cases h
          · rw [hx] at h; cases h; exact first (i2 hg) _ hy
      | some y =>
        have h := s2 y hg
        refine ⟨fun hn => ?_, fun hn => ?_, fun x hx => ?_⟩
        · rw [hn] at h; cases h
        · rw [hn] at h; cases h
        · rw [hx] at h; cases h; exact later _ (i3 _ hg)

/-- There is only one first name. -/
theorem PN.first_unique {es : List Event} {a : Nat} {x y : Name} (hx : FirstName es a x) (hy : FirstName es a y) : x = y := by
  obtain ⟨p, e, q, rfl, h1, h2⟩ := hx
  obtain ⟨p', e', q', he, h1', h2'⟩ := hy
  rcases List.append_eq_append_iff.1 he with ⟨t, ht, he2⟩ | ⟨t, ht, he2⟩
  · cases t with
    | nil =>
      simp at ht he2
      obtain ⟨rfl, rfl⟩ := he2
      subst ht
      rcases h1 with rfl | ⟨k, b, rfl, hd, _⟩
      · rcases h1' with h | ⟨_, _, h, _⟩
        · cases h; rfl
        · cases h
      · rcases h1' with h | ⟨_, _, h, hd', _⟩
        · cases h
        · cases h; exact defines_fun hd hd'
    | cons t0 ts =>
      simp at he2
      obtain ⟨rfl, rfl⟩ := he2
      exact absurd h1 (h2' p e ts x ht)
  · cases t with
    | nil =>
      simp at ht he2
      obtain ⟨rfl, rfl⟩ := he2
      subst ht
      rcases h1 with rfl | ⟨k, b, rfl, hd, _⟩
      · rcases h1' with h | ⟨_, _, h, _⟩
        · cases h; rfl
        · cases h
      · rcases h1' with h | ⟨_, _, h, hd', _⟩
        · cases h
        · cases h; exact defines_fun hd hd'
    | cons t0 ts =>
      simp at he2
      obtain ⟨rfl, rfl⟩ := he2
      exact absurd h1' (h2 p' e' ts y ht)

/-! ## C146 -/

/-- **C146** `(procedure-name p)` is the name of the first definition of the procedure, and `#f` if there is none. -/
theorem c146_name {es : List Event} (hp : Possible es) {a n : Nat} (hm : Made es n) (ha : a < n) :
    (∀ x, asked es (.proc a) = .sym x ↔ FirstName es a x) ∧ (asked es (.proc a) = .false ↔ NoName es a) := by
  obtain ⟨_, i2, i3⟩ := name_inv hp a
  have hl := made_length hm
  have hex : ∃ p, (run [] es)[a]? = some p := ⟨_, List.getElem?_eq_getElem (by omega)⟩
  obtain ⟨⟨q⟩, hq⟩ := hex
  have excl : ∀ x, FirstName es a x → ¬ NoName es a := by
    rintro x ⟨pre, e, post, h, hx, _⟩ hn
    exact hn pre e post x h hx
  cases q with
  | none =>
    have he : asked es (.proc a) = .false := by simp [asked, step, procedureName, hq]
    rw [he]
    exact ⟨fun x => ⟨fun h => by (cases h), fun h => absurd (i2 hq) (excl x h)⟩, ⟨fun _ => i2 hq, fun _ => rfl⟩⟩
  | some y =>
    have he : asked es (.proc a) = .sym y := by simp [asked, step, procedureName, hq]
    rw [he]
    refine ⟨fun x => ⟨fun h => by cases h; exact i3 _ hq, fun h => by rw [first_unique h (i3 _ hq)]⟩, ⟨fun h => by (cases h), fun h => absurd h (excl y (i3 _ hq))⟩⟩

/-- **C146** A name is for ever: what the program does afterwards -- definitions of other names for the same procedure, assignments -- does not change it. -/
theorem c146_stable {es more : List Event} (hp : Possible (es ++ more)) {a n : Nat} (hm : Made es n) (ha : a < n) {x : Name}
    (h : asked es (.proc a) = .sym x) : asked (es ++ more) (.proc a) = .sym x := by
  induction more using List.reverseRecOn with
  | nil => simpa using h
  | append_singleton more e ih =>
    have hp' : Possible ((es ++ more) ++ [e]) := by simpa using hp
    have := ih (possible_pre hp')
    rw [← List.append_assoc]
    have hl : ∃ q, (run [] (es ++ more))[a]? = some q := by
      cases hg : (run [] (es ++ more))[a]? with
      | some q => exact ⟨q, rfl⟩
      | none => simp [asked, step, procedureName, hg] at this
    obtain ⟨⟨q⟩, hq⟩ := hl
    cases q with
    | none => simp [asked, step, procedureName, hq] at this
    | some y =>
      have hy : y = x := by simpa [asked, step, procedureName, hq] using this
      subst hy
      have := (step_get (es := es ++ more) (e := e) (a := a)).2.1 y hq
      show procedureName (run [] (es ++ more ++ [e])) (.proc a) = _
      rw [run_snoc]
      simp only [procedureName, this]

/-- **C146** The printed form of a procedure shows the name `procedure-name` answers. -/
theorem c146_print (es : List Event) (a : Nat) :
    (∀ x, asked es (.proc a) = .sym x → printed (run [] es) (.proc a) = "#<procedure " ++ x ++ " ") ∧
    (asked es (.proc a) = .false → printed (run [] es) (.proc a) = "#<procedure #f ") := by
  show (∀ x, procedureName (run [] es) (.proc a) = .sym x → _) ∧ (procedureName (run [] es) (.proc a) = .false → _)
  simp only [procedureName, printed]
  cases hg : (run [] es)[a]? with
  | none => exact ⟨fun x h => by (cases h), fun h => by cases h⟩
  | some p =>
    obtain ⟨q⟩ := p
    cases q with
    | none => exact ⟨fun x h => by (cases h), fun _ => rfl⟩
    | some y => exact ⟨fun x h => by (cases h; rfl), fun h => by cases h⟩

/-- **C146** fails for builtins: they have a name, which is printed, but `procedure-name` is an error for every builtin, in every history. -/
theorem c146_builtin_fails (es : List Event) (n : Name) :
    (∀ generic, asked es (.builtin n generic) = .error) ∧ printed (run [] es) (.builtin n false) = "#<builtin-func " ++ n ++ ">" ∧
      printed (run [] es) (.builtin n true) = "#<primitive-generic " ++ n ++ ">" := by
  refine ⟨fun _ => rfl, ?_, ?_⟩ <;> simp [printed, String.append_assoc]

/-! ## Cases -/

/-- `(define f (lambda ...))`, `(define g f)`, `(define ((h a) b) ...)`, `(lambda ...)`. -/
def PN.demo : List Event :=
  [.lambda, .define "f" (.proc 0), .define "g" (.proc 0), .defun (.pair (.pair (.sym "h") (.pair (.sym "a") .nil)) (.pair (.sym "b") .nil)) .nil, .lambda, .set "f" (.proc 2)]

example : asked demo (.proc 0) = .sym "f" ∧ asked demo (.proc 1) = .sym "h" ∧ asked demo (.proc 2) = .false := ⟨rfl, rfl, rfl⟩

theorem PN.demo_possible : Possible demo := by
  intro pre x a post n h hm
  have := made_length hm
  unfold demo at h
  rcases pre with _ | ⟨e0, _ | ⟨e1, _ | ⟨e2, _ | ⟨e3, _ | ⟨e4, _ | ⟨e5, pre⟩⟩⟩⟩⟩⟩ <;> simp at h
  · obtain ⟨rfl, ⟨_, rfl⟩, _⟩ := h; rw [← this]; decide
  · obtain ⟨rfl, rfl, ⟨_, rfl⟩, _⟩ := h; rw [← this]; decide

example : FirstName demo 0 "f" ∧ FirstName demo 1 "h" ∧ NoName demo 2 := by
  have hm : Made demo 3 := made_total demo
  refine ⟨((c146_name demo_possible hm (by decide)).1 _).1 rfl, ((c146_name demo_possible hm (by decide)).1 _).1 rfl, (c146_name demo_possible hm (by decide)).2.1 rfl⟩

end Pscm
