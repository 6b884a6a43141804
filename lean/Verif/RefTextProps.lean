import Verif.RefProps
/-! # C138 for programs about strings -/
namespace Pscm
open Ev Ref
open Ref (Form Val Exp Event Store Env)
variable {σ : Type} {P : Prims σ} {F : FArith}

namespace RefDemo

/-- `(list->string (reverse (string->list "s")))` -/
def flipText (s : String) : List Ref.Form :=
  [.exp (.app (.var "list->string") [.app (.var "reverse") [.app (.var "string->list") [.const (.str s)]]])]

theorem char_byte {c : Char} (h : Byte c) : Ref.charOf (byteOf c) = c := by
  have h1 : (UInt8.ofNat c.toNat).toNat = c.toNat := by
    simp only [UInt8.toNat_ofNat']
    exact Nat.mod_eq_of_lt h
  unfold Ref.charOf byteOf
  rw [h1, Char.ofNat_toNat]

theorem elems_list' (vs : List Ref.Val) : (Ref.Val.list vs).elems = some vs := by
  induction vs with
  | nil => rfl
  | cons v vs ih => simp [Ref.Val.list, Ref.Val.elems, ih]

theorem chars_of {cs : List Char} (h : ∀ c ∈ cs, Byte c) : chars (cs.map fun c => Ref.Val.chr (byteOf c)) = some cs := by
  induction cs with
  | nil => rfl
  | cons c cs ih =>
    simp only [List.map_cons, chars, ih fun c hc => h c (.tail _ hc), char_byte (h c (.head _)), Option.map_some]

theorem flip_means {s : String} (h : Fits s.toList) : Means (flipText s) (.val (.str (String.ofList s.toList.reverse))) := by
  refine ⟨9, ?_⟩
  have hg : ∀ (st : Store) (x : Ref.Name), x ∈ stdNames → st.globals = (initial builtinNames).globals → ∀ n, eval standard (n + 1) [] (.var x) st = .val (.prim x, st) := by
    intro st x hx hs n
    refine eval_var ?_ (by simp)
    simp only [look, List.lookup, hs]
    rw [lookup_initial, if_pos (std_builtin _ hx)]
  have h1 : eval standard 5 [] (.app (.var "string->list") [.const (.str s)]) (initial builtinNames) =
      .val (Ref.Val.list (s.toList.map fun c => .chr (byteOf c)), initial builtinNames) := by
    rw [eval_app (n := 4) (hg _ _ (by decide) rfl _) (by decide) (evalList_cons rfl evalList_nil)]
    exact apply_prim (by decide) (by simp [stdAp, unary, onText, Const.toVal, h])
  have h2 : eval standard 7 [] (.app (.var "reverse") [.app (.var "string->list") [.const (.str s)]]) (initial builtinNames) =
      .val (Ref.Val.list (s.toList.map fun c => .chr (byteOf c)).reverse, initial builtinNames) := by
    rw [eval_app (n := 6) (hg _ _ (by decide) rfl _) (by decide) (evalList_cons h1 evalList_nil)]
    exact apply_prim (by decide) (by simp [stdAp, unary, elems_list'])
  have h3 : eval standard 9 [] (.app (.var "list->string") [.app (.var "reverse") [.app (.var "string->list") [.const (.str s)]]]) (initial builtinNames) =
      .val (.str (String.ofList s.toList.reverse), initial builtinNames) := by
    rw [eval_app (n := 8) (hg _ _ (by decide) rfl _) (by decide) (evalList_cons h2 evalList_nil)]
    refine apply_prim (by decide) ?_
    have hc := chars_of (cs := s.toList.reverse) fun c hc => h.1 c (List.mem_reverse.1 hc)
    have hl := h.2
    rw [List.map_reverse] at hc
    simp only [stdAp, unary, elems_list', spell, hc, List.length_reverse, List.length_map, hl, if_true, Ref.strOf]
  simp only [flipText, evalProgram, Ref.evalForm, h3, Ans.bind]

end RefDemo

open RefDemo in
/-- **C138**, for strings: `(list->string (reverse (string->list "s")))` is the string `s` backwards, whatever `s` is. -/
theorem c138_flip (hP : HasStd P F) (x : σ) (s : String) (h : Fits s.toList) (o : Out V) :
    Outcome P x (flipText s) o ↔ o = .ok (.str (String.ofList s.toList.reverse)) := by
  obtain ⟨w, hw, k⟩ := c138_value_partial hP x (fs := flipText s) (by simp [flipText, Form.Ok, Exp.Ok, Exp.BodyOk, defs, Exp.Oks]; decide) (flip_means h)
  cases hw
  exact k o

open RefDemo in
example (hP : HasStd P F) (x : σ) : Outcome P x (flipText "stressed") (.ok (.str "desserts")) := (c138_flip hP x "stressed" (by decide) _).2 rfl

namespace RefDemo

/-- `(list (string-append (symbol->string 'ab) "-" (string #\c)) (string-length "xyz") (substring "hello" 1 3) (char->integer (string-ref "abc" 2))
(string=? "a" "b") (char<? #\a #\b) (eq? (string->symbol "k") 'k) (integer->char 65))` -/
def texts : List Ref.Form :=
  [.exp (.app (.var "list")
    [.app (.var "string-append") [.app (.var "symbol->string") [.quote (.sym "ab")], .const (.str "-"), .app (.var "string") [.const (.chr 99)]],
     .app (.var "string-length") [.const (.str "xyz")], .app (.var "substring") [.const (.str "hello"), .const (.num 1), .const (.num 3)],
     .app (.var "char->integer") [.app (.var "string-ref") [.const (.str "abc"), .const (.num 2)]], .app (.var "string=?") [.const (.str "a"), .const (.str "b")],
     .app (.var "char<?") [.const (.chr 97), .const (.chr 98)], .app (.var "eq?") [.app (.var "string->symbol") [.const (.str "k")], .quote (.sym "k")],
     .app (.var "integer->char") [.const (.num 65)]])]

/-- `(string-ref "abc" 3)` -/
def beyond : List Ref.Form := [.exp (.app (.var "string-ref") [.const (.str "abc"), .const (.num 3)])]

end RefDemo

open RefDemo in
example (hP : HasStd P F) (x : σ) : Outcome P x texts
    (.ok (listOf [.str "ab-c", .num 3, .str "el", .num 99, .bool false, .bool true, .bool true, .chr 65])) := by
  obtain ⟨w, hw, h⟩ := c138_value_partial hP x (fs := texts) (by simp [texts, Form.Ok, Exp.Ok, Exp.BodyOk, defs, Exp.Oks]; decide)
    (v := Ref.Val.list [.str "ab-c", .num 3, .str "el", .num 99, .bool false, .bool true, .bool true, .chr 65]) ⟨20, rfl⟩
  obtain ⟨_, _, rfl, rfl, _, _, rfl, rfl, _, _, rfl, rfl, _, _, rfl, rfl, _, _, rfl, rfl, _, _, rfl, rfl, _, _, rfl, rfl, _, _, rfl, rfl, rfl⟩ := hw
  exact (h _).2 rfl

open RefDemo in
example (hP : HasStd P F) (x : σ) : ∃ k a, Outcome P x beyond (.stop (.err none k a)) := by
  obtain ⟨k, a, h⟩ := c138_error_partial hP x (fs := beyond) (by simp [beyond, Form.Ok, Exp.Ok, Exp.BodyOk, defs, Exp.Oks]; decide) ⟨20, rfl⟩
  exact ⟨k, a, (h _).2 rfl⟩

namespace RefDemo

/-- `(list (member "b" (list "a" "b" "c")) (assoc '(1 2) (acons '(1 2) 'x '())) (string<? "abc" "abd") (string>=? "ab" "abc") (number->string (- 3 10))
(char-upcase #\q) (char-alphabetic? #\1) (char-ci=? #\a #\A) (gcd 12 18) (lcm 4 6))` -/
def finds : List Ref.Form :=
  [.exp (.app (.var "list")
    [.app (.var "member") [.const (.str "b"), .app (.var "list") [.const (.str "a"), .const (.str "b"), .const (.str "c")]],
     .app (.var "assoc") [.quote (.pair (.num 1) (.pair (.num 2) .nil)), .app (.var "acons") [.quote (.pair (.num 1) (.pair (.num 2) .nil)), .quote (.sym "x"), .quote .nil]],
     .app (.var "string<?") [.const (.str "abc"), .const (.str "abd")], .app (.var "string>=?") [.const (.str "ab"), .const (.str "abc")],
     .app (.var "number->string") [.app (.var "-") [.const (.num 3), .const (.num 10)]], .app (.var "char-upcase") [.const (.chr 113)],
     .app (.var "char-alphabetic?") [.const (.chr 49)], .app (.var "char-ci=?") [.const (.chr 97), .const (.chr 65)],
     .app (.var "gcd") [.const (.num 12), .const (.num 18)], .app (.var "lcm") [.const (.num 4), .const (.num 6)]])]

/-- `(string<? "a" 1)` -/
def mixed : List Ref.Form := [.exp (.app (.var "string<?") [.const (.str "a"), .const (.num 1)])]

/-- What `finds` answers. -/
def found : List Ref.Val :=
  [Ref.Val.list [.str "b", .str "c"], .pair (Ref.Val.list [.num 1, .num 2]) (.sym "x"), .bool true, .bool false, .str "-7", .chr 81, .bool false, .bool true, .num 6, .num 12]

end RefDemo

open RefDemo in
example (hP : HasStd P F) (x : σ) : Outcome P x finds
    (.ok (listOf [listOf [.str "b", .str "c"], .pair (listOf [.num 1, .num 2]) (.sym "x"), .bool true, .bool false, .str "-7", .chr 81, .bool false, .bool true, .num 6, .num 12])) := by
  obtain ⟨w, hw, h⟩ := c138_value_partial hP x (fs := finds) (by simp [finds, Form.Ok, Exp.Ok, Exp.BodyOk, defs, Exp.Oks]; decide)
    (v := Ref.Val.list found) (means_of 20 (found.foldr (fun v d => .pair ((v.datum).getD .nil) d) .nil) (by decide +kernel))
  obtain ⟨_, _, rfl, ⟨_, _, rfl, rfl, _, _, rfl, rfl, rfl⟩, _, _, rfl, ⟨_, _, rfl, ⟨_, _, rfl, rfl, _, _, rfl, rfl, rfl⟩, rfl⟩, _, _, rfl, rfl, _, _, rfl, rfl, _, _, rfl, rfl, _, _, rfl, rfl, _, _, rfl, rfl,
    _, _, rfl, rfl, _, _, rfl, rfl, _, _, rfl, rfl, rfl⟩ := hw
  exact (h _).2 rfl

open RefDemo in
example (hP : HasStd P F) (x : σ) : ∃ k a, Outcome P x mixed (.stop (.err none k a)) := by
  obtain ⟨k, a, h⟩ := c138_error_partial hP x (fs := mixed) (by simp [mixed, Form.Ok, Exp.Ok, Exp.BodyOk, defs, Exp.Oks]; decide) ⟨20, rfl⟩
  exact ⟨k, a, (h _).2 rfl⟩

end Pscm
