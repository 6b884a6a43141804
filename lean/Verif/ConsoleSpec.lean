import Verif.RefOut
import Verif.ScriptSpec
/-!
# Specification for programs that print: what is seen on the standard output
-/
namespace Pscm.Scr.Spec
open Pscm.Rd (Bytes asc)
open Pscm.Ref (Store Form Event evalForm printing)

/-- What `display` prints (R5RS 6.6.3): as `Ext`, but strings and characters, also those in lists, are printed as they are. -/
inductive Disp : Part → Ref.Val → Bytes → Prop
  | nil : Disp .datum .nil (asc "()")
  | true : Disp .datum (.bool true) (asc "#t")
  | false : Disp .datum (.bool false) (asc "#f")
  | num {n t} : Pscm.Spec.IsNumeral 10 n t → Disp .datum (.num n) t
  | chr {c} : Disp .datum (.chr c) [c]
  | str {s t} : t.map UInt8.toNat = s.toList.map Char.toNat → Disp .datum (.str s) t
  | sym {x t} : t.map UInt8.toNat = x.toList.map Char.toNat → Disp .datum (.sym x) t
  | quote {v t} : Disp .datum v t → Disp .datum (.pair (.sym "quote") (.pair v .nil)) (39 :: t)
  | list {a d s t} : Disp .datum a s → Disp .rest d t → Disp .datum (.pair a d) (40 :: (s ++ t ++ [41]))
  | last : Disp .rest .nil []
  | next {a d s t} : Disp .datum a s → Disp .rest d t → Disp .rest (.pair a d) (32 :: (s ++ t))
  | dotted {v t} : v ≠ .nil → (∀ a d, v ≠ .pair a d) → Disp .datum v t → Disp .rest v (asc " . " ++ t)

/-- No string and no character occurs in the value. -/
def Textless : Ref.Val → Prop
  | .str _ => False
  | .chr _ => False
  | .pair a d => Textless a ∧ Textless d
  | _ => True

/-- A string of characters of one byte without NUL, a character, or a value made of other data. -/
def Displayable (v : Ref.Val) : Prop :=
  (∃ s, v = .str s ∧ ∀ c ∈ s.toList, 0 < c.toNat ∧ c.toNat < 256) ∨ (∃ c, v = .chr c) ∨ (Printable .datum v ∧ Textless v)

/-- The text of one event.  What `display` prints for other values, and `write` for values that are not made of data, is left open. -/
inductive Shown : Event → Bytes → Prop
  | newline : Shown .newline [10]
  | write {v t} : (Printable .datum v → Ext .datum v t) → Shown (.write v) t
  | display {v t} : (Displayable v → Disp .datum v t) → Shown (.display v) t

/-- The texts of events, one after the other. -/
inductive ShownAll : List Event → Bytes → Prop
  | nil : ShownAll [] []
  | snoc {es e t u} : ShownAll es t → Shown e u → ShownAll (es ++ [e]) (t ++ u)

/-- The forms of a program, evaluated one after the other: what each prints, and its value, or `none` for an error.  After an error the next form is evaluated, with the
effects performed before the error. -/
inductive Runs : Store → List Form → List (List Event × Option Ref.Val) → Store → Prop
  | nil {st} : Runs st [] [] st
  | cons {st n f v st1 es fs l st2} : evalForm printing n st f = .val (v, st1) → st1.out = st.out ++ es → Runs st1 fs l st2 → Runs st (f :: fs) ((es, some v) :: l) st2
  | error {st n f st1 es fs l st2} : evalForm printing n st f = .error (some st1) → st1.out = st.out ++ es → Runs st1 fs l st2 → Runs st (f :: fs) ((es, none) :: l) st2

/-- What is seen on the standard output: for each form what it prints, and then, unless it is an error or its value is the unspecified one, a line that ends with an
external representation of the value. -/
inductive Transcript : List (List Event × Option Ref.Val) → Bytes → Prop
  | nil : Transcript [] []
  | silent {es l t u} : ShownAll es t → Transcript l u → Transcript ((es, some .unspecified) :: l) (t ++ u)
  | error {es l t u} : ShownAll es t → Transcript l u → Transcript ((es, none) :: l) (t ++ u)
  | line {es v l t a u} : v ≠ .unspecified → ShownAll es t → (Printable .datum v → Ext .datum v a) → Transcript l u →
      Transcript ((es, some v) :: l) (t ++ (a ++ [10] ++ u))

end Pscm.Scr.Spec
