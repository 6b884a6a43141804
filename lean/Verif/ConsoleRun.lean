import Verif.Console
import Verif.ConsoleSpec
import Verif.ScriptProps
/-! # Programs that print: lemmas -/
namespace Pscm.Scr
open Pscm.Rd (D Bytes FloIO asc print pr)
open Pscm.Ref (Fixed StRel World Store VRel VRels Registered Implements Builtins evalForm printing outNames outAp outPrints stdNames stdAp standard Same Event Throws)
open Pscm.Ev hiding Name Form evalForm StRel
open Pscm.Ev.EM (modSt)
open Pscm.Scr.Spec
variable {σ : Type} {P : Prims σ} {FA : FArith} {F : FloIO} {obj : V → Bytes} {C : Console σ} {W : World} {st : Store} {s : St σ}

/-! ## What is printed -/

theorem ext_disp {p : Part} {v : Ref.Val} {t : Bytes} (h : Ext p v t) (hv : Textless v) : Disp p v t := by
  induction h with
  | nil => exact .nil
  | true => exact .true
  | false => exact .false
  | num h => exact .num h
  | space => exact absurd hv id
  | newline => exact absurd hv id
  | tab => exact absurd hv id
  | chr _ => exact absurd hv id
  | str _ => exact absurd hv id
  | sym h => exact .sym h
  | quote _ ih => exact .quote (ih hv.2.1)
  | list _ _ iha ihd => exact .list (iha hv.1) (ihd hv.2)
  | last => exact .last
  | next _ _ iha ihd => exact .next (iha hv.1) (ihd hv.2)
  | dotted h1 h2 _ ih => exact .dotted h1 h2 (ih hv)

theorem cstr_eq {b : Bytes} (h : ∀ c ∈ b, c ≠ 0) : cstr b = b := by
  induction b with
  | nil => rfl
  | cons c b ih =>
    unfold cstr
    rw [List.takeWhile_cons_of_pos (by simpa using h c (.head _))]
    exact congrArg _ (ih fun c hc => h c (.tail _ hc))

/-- `display` prints lists as `write` does. -/
theorem displayText_pair (a d : V) : displayText F obj (.pair a d) = valueText F obj (.pair a d) := by
  unfold displayText valueText
  cases h : toD (.pair a d) with
  | none => rfl
  | some x =>
    simp only [toD] at h
    split at h
    · cases h
      rfl
    · cases h

theorem display_shown {v : Ref.Val} {w : V} (h : Same v w) (hd : Displayable v) : Disp .datum v (displayText F obj w) := by
  have other : Printable .datum v → Textless v → displayText F obj w = valueText F obj w → Disp .datum v (displayText F obj w) := by
    intro hp ht e
    rw [e]
    obtain ⟨d, hd, hE⟩ := (print_ext F h).1 hp
    unfold valueText
    rw [hd]
    exact ext_disp (hE _) ht
  rcases hd with ⟨x, rfl, hx⟩ | ⟨c, rfl⟩ | ⟨hp, ht⟩
  · cases h
    have hb := bytes_of fun c hc => (hx c hc).2
    have h0 : ∀ c ∈ x.toList.map (fun c => c.toNat.toUInt8), c ≠ 0 := by
      intro b hb e
      obtain ⟨c, hc, rfl⟩ := List.mem_map.1 hb
      have h1 := char_toUInt8 (hx c hc).2
      rw [e] at h1
      have := (hx c hc).1
      simp at h1
      omega
    have e : displayText F obj (.str x) = x.toList.map fun c => c.toNat.toUInt8 := by
      simp only [displayText, toD, hb, Option.map_some]
      exact cstr_eq h0
    rw [e]
    exact .str (bytes_toNat hb)
  · cases h
    exact .chr
  · cases v with
    | str _ => exact absurd ht id
    | chr _ => exact absurd ht id
    | pair a d =>
      obtain ⟨a', d', rfl, _, _⟩ := h
      exact other hp ht (displayText_pair _ _)
    | nil => cases h; exact other hp ht rfl
    | bool b => cases h; exact other hp ht rfl
    | num n => cases h; exact other hp ht rfl
    | sym x =>
      cases h
      refine other hp ht ?_
      unfold displayText valueText
      simp only [toD]
      cases bytes x <;> rfl
    | _ => exact absurd hp id

theorem write_shown {v : Ref.Val} {w : V} (h : Same v w) (hp : Printable .datum v) : Ext .datum v (valueText F obj w) := by
  obtain ⟨d, hd, hE⟩ := (print_ext F h).1 hp
  unfold valueText
  rw [hd]
  exact hE _

/-! ## The builtins -/

theorem out_arity {f : Ref.Name} (hf : f ∈ outNames) {a : Int} (h : Registered f a) : a = -2 := by
  obtain ⟨r, hr, rfl, rfl⟩ := h
  have : registry.all (fun r => !decide (r.name ∈ outNames) || decide (r.arity = -2)) = true := by decide +kernel
  have := List.all_eq_true.1 this r hr
  simpa [hf] using this

theorem out_call {f : Ref.Name} (hf : f ∈ outNames) {ws : List V} {s : St σ} :
    callFunc P (run P) f (-2) ws s = runPrim (run P) (P.call f ws s.ext) s := by
  have h : ∀ y ∈ outNames, (y ≠ "values" ∧ y ≠ "force" ∧ y ≠ "catch" ∧ y ≠ "throw" ∧ y ≠ "eval" ∧ y ≠ "load" ∧ y ≠ "primitive-load" ∧
      y ≠ "macroexpand-1" ∧ y ≠ "macroexpand" ∧ isModPrim y = false ∧ isUnmodelled y = false) ∧ isEvalOnly y = false ∧ y ≠ "call/cc" ∧
      y ≠ "call-with-current-continuation" := by decide
  obtain ⟨⟨h1, h2, h3, h4, h5, h6, h7, h8, h9, h10, h11⟩, h12, h13, h14⟩ := h f hf
  unfold callFunc
  rw [if_neg (by decide), if_neg (by decide), if_pos rfl, if_neg (by simp [h12]), if_neg (by simp [h13, h14])]
  unfold callPrim
  simp only [h1, h2, h3, h4, h5, h6, h7, h8, h9, h10, h11, if_false, or_self, Bool.false_eq_true]
  rfl

/-- The results of the three procedures. -/
theorem out_value {x : Ref.Name} {vs : List Ref.Val} {v : Ref.Val} (h : outAp x vs = .val v) :
    v = .unspecified ∧ ((x = "newline" ∧ vs = []) ∨ ∃ u, vs = [u] ∧ (x = "display" ∨ x = "write")) := by
  unfold outAp at h
  split at h
  · cases h; exact ⟨rfl, .inr ⟨_, rfl, .inl rfl⟩⟩
  · cases h; exact ⟨rfl, .inr ⟨_, rfl, .inr rfl⟩⟩
  · cases h; exact ⟨rfl, .inl ⟨rfl, rfl⟩⟩
  all_goals cases h

theorem out_error {x : Ref.Name} {vs : List Ref.Val} (h : outAp x vs = .error) : vs = [] ∧ (x = "display" ∨ x = "write") := by
  unfold outAp at h
  split at h
  · cases h
  · cases h
  · cases h
  · exact ⟨rfl, .inl rfl⟩
  · exact ⟨rfl, .inr rfl⟩
  · cases h

theorem std_prints {x : Ref.Name} (hx : x ∉ outNames) (vs : List Ref.Val) : outPrints x vs = [] := by
  unfold outPrints
  split
  · exact absurd (by decide) hx
  · exact absurd (by decide) hx
  · exact absurd (by decide) hx
  · rfl

theorem out_implements (hP : HasStd P FA) (hO : HasOut P F obj C) {X0 : Fixed σ}
    (hX : ∀ {evs y e t}, X0.ext evs y → Shown e t → X0.ext (evs ++ [e]) (C.put t y)) : Implements X0 P Registered printing where
  plain := by
    intro x a _ hd
    have hx : x ∈ stdNames ++ outNames := by simpa [printing] using hd
    have : ∀ y ∈ stdNames ++ outNames, y ≠ "apply" ∧ y ≠ "map" ∧ y ≠ "map-in-order" ∧ isCallCC y = false := by decide
    exact this x hx
  value := by
    intro x a vs v W ws s hr hd hv hvs evs he
    by_cases hx : x ∈ outNames
    · simp only [printing, hx, if_true] at hv
      cases out_arity hx hr
      obtain ⟨rfl, ⟨rfl, rfl⟩ | ⟨u, rfl, hn⟩⟩ := out_value hv
      · cases hvs
        refine ⟨.none, C.put [10] s.ext, ?_, rfl, hX he .newline⟩
        rw [out_call hx, hO.ok s.ext rfl]
        rfl
      · cases hvs with
        | cons hu hvs =>
          rename_i w _
          cases hvs
          rcases hn with rfl | rfl
          · refine ⟨.none, C.put (displayText F obj w) s.ext, ?_, rfl, hX he (.display (display_shown hu.same))⟩
            rw [out_call hx, hO.ok s.ext rfl]
            rfl
          · refine ⟨.none, C.put (valueText F obj w) s.ext, ?_, rfl, hX he (.write (write_shown hu.same))⟩
            rw [out_call hx, hO.ok s.ext rfl]
            rfl
    · simp only [printing, hx, if_false] at hv
      have hd' : standard.dom x = true := by
        simp only [printing, Bool.or_eq_true, List.contains_iff_mem, hx, or_false] at hd
        simpa [standard] using hd
      obtain ⟨w, y, h1, h2, h3⟩ := (Ref.std_implements hP (X0 := X0)).value hr hd' hv hvs he
      refine ⟨w, y, h1, h2, ?_⟩
      show X0.ext (evs ++ outPrints x vs) y
      rw [std_prints hx]
      exact h3
  error := by
    intro x a vs W ws s hr hd hv hvs hc
    by_cases hx : x ∈ outNames
    · simp only [printing, hx, if_true] at hv
      cases out_arity hx hr
      obtain ⟨rfl, hn⟩ := out_error hv
      cases hvs
      obtain ⟨k, a, hk⟩ := hO.err s.ext hn
      refine ⟨k, a, ?_⟩
      rw [out_call hx, hk]
      show some (Out.stop (throwStop s k a), s) = _
      rw [hc]
    · simp only [printing, hx, if_false] at hv
      have hd' : standard.dom x = true := by
        simp only [printing, Bool.or_eq_true, List.contains_iff_mem, hx, or_false] at hd
        simpa [standard] using hd
      exact (Ref.std_implements hP (X0 := X0)).error hr hd' hv hvs hc

/-! ## States -/

/-- No `catch` is active; since the state `x`, when the events `evs` had taken place, what was printed is the text of the events. -/
def since (C : Console σ) (x : σ) (evs : List Event) : Fixed σ where
  ext := fun es y => ∃ new t, es = evs ++ new ∧ ShownAll new t ∧ C.get y = C.get x ++ t
  catches := []
  live := []
  target := none
  ok := fun _ => rfl

theorem since_put {x : σ} {evs es : List Event} {y : σ} {e : Event} {t : Bytes} (h : (since C x evs).ext es y) (ht : Shown e t) :
    (since C x evs).ext (es ++ [e]) (C.put t y) := by
  obtain ⟨new, u, rfl, hu, hy⟩ := h
  exact ⟨new ++ [e], u ++ t, by rw [List.append_assoc], .snoc hu ht, by rw [C.get_put, hy, List.append_assoc]⟩

theorem rebase {X X' : Fixed σ} (h : StRel X Registered W st s) (hc : X'.catches = X.catches ∧ X'.live = X.live) {y : σ} (he : X'.ext st.out y) :
    StRel X' Registered W st { s with ext := y } :=
  ⟨h.wf, h.rib, h.inj, h.macros, h.modMacros, h.curRoot, by rw [hc.1, hc.2]; exact h.catches, he, h.kept, h.top⟩

theorem since_self {x : σ} {evs : List Event} : (since C x evs).ext evs x := ⟨[], [], (List.append_nil _).symm, .nil, (List.append_nil _).symm⟩

end Pscm.Scr
