import Verif.ConsoleRun
/-!
# C142: programs that print

`pscm FILE` on a program that calls `display`, `write` and `newline`: what is seen on the standard output.
-/
namespace Pscm
open Pscm.Scr Pscm.Scr.Spec
open Pscm.Rd (D Bytes FloIO asc print)
open Pscm.Ref (Same Registered builtinNames initial printing Store evalForm StRel Fixed World VRel Event)
open Pscm.Ev hiding Name Form evalForm StRel
variable {σ : Type} {P : Prims σ} {FA : FArith} {F : FloIO} {obj : V → Bytes} {C : Console σ}

/-- What `pscm FILE` does, started on a file with this text: its exit status, and all that was printed on the standard output until then. -/
def ConsoleOutcome (P : Prims σ) (F : FloIO) (obj : V → Bytes) (C : Console σ) (x : σ) (text : Bytes) (o : Out Int) (seen : Bytes) : Prop :=
  ∃ n s, runConsole P F obj C n (some text) (start x) = some (o, s) ∧ C.get s.ext = seen

namespace Scr

/-- The loop of a script, without a limit of depth. -/
noncomputable def consoleRun (P : Prims σ) (F : FloIO) (obj : V → Bytes) (C : Console σ) : List V → EM σ Unit
  | [] => pure ()
  | x :: xs => do
    let r ← evalRun P x
    emit C (answerText F obj r)
    consoleRun P F obj C xs

theorem consoleLoop_lub (xs : List V) : EM.Lub (fun n => consoleLoop P F obj C n xs) (consoleRun P F obj C xs) := by
  induction xs with
  | nil => exact EM.lub_const _
  | cons x xs ih =>
    have h := pscmEval_lub P x
    unfold consoleLoop consoleRun
    exact EM.bind_lub h fun r => EM.bind_lub (EM.lub_const _) fun _ => ih

theorem console_lub {xs : List V} : EM.Lub (fun n => consoleLoop P F obj C n xs >>= fun _ => pure (0 : Int)) (consoleRun P F obj C xs >>= fun _ => pure 0) :=
  EM.bind_lub (consoleLoop_lub _) fun _ => EM.lub_const _

theorem console_run {text : Bytes} {y : V} {ys : List V} (ht : ProgramText F text (y :: ys)) (n : Nat) (s : St σ) :
    runConsole P F obj C n (some text) s = (consoleLoop P F obj C n (y :: ys) >>= fun _ => pure 0) s := by
  obtain ⟨ds, r, h1, h2⟩ := program_reads ht (text.length + 1) (Nat.lt_succ_self _)
  simp only [runConsole, h1, h2]

theorem inside_put {x : σ} {evs : List Event} {id : Nat} {es : List Event} {y : σ} {e : Event} {t : Bytes} (h : (inside (since C x evs) id).ext es y) (ht : Shown e t) :
    (inside (since C x evs) id).ext (es ++ [e]) (C.put t y) := since_put h ht

/-- One form: what it prints and its value. -/
theorem console_form (hP : HasStd P FA) (hO : HasOut P F obj C) {n : Nat} {f : Ref.Form} {v : Ref.Val} {st st1 : Store} {W : World} {s : St σ} (hok : f.Ok Registered)
    (he : evalForm printing n st f = .val (v, st1)) (h : StRel (since C s.ext st.out) Registered W st s) :
    ∃ w t s1 W1, evalRun P f.toV s = some (.ok (.value w), s1) ∧ VRel Registered W1 v w ∧ StRel (since C s.ext st.out) Registered W1 st1 s1 ∧
      ShownAll (st1.out.drop st.out.length) t ∧ C.get s1.ext = C.get s.ext ++ t := by
  have hs := sim_eval (P := P) (B := printing) (out_implements hP hO inside_put) n hok h (by decide : 0 < 100)
  rw [he] at hs
  obtain ⟨w, s1, W1, hm, hv, hr⟩ := hs
  obtain ⟨new, t, h1, h2, h3⟩ := hr.ext
  refine ⟨w, t, s1, W1, hm, hv, hr, ?_, h3⟩
  rw [h1, List.drop_left]
  exact h2

/-- One form that is an error: what it prints before. -/
theorem console_wrong (hP : HasStd P FA) (hO : HasOut P F obj C) {n : Nat} {f : Ref.Form} {st st1 : Store} {W : World} {s : St σ} (hok : f.Ok Registered)
    (he : evalForm printing n st f = .error (some st1)) (h : StRel (since C s.ext st.out) Registered W st s) :
    ∃ k a t s1 W1, evalRun P f.toV s = some (.ok (.failed k a), s1) ∧ StRel (since C s.ext st.out) Registered W1 st1 s1 ∧
      ShownAll (st1.out.drop st.out.length) t ∧ C.get s1.ext = C.get s.ext ++ t := by
  have hs := sim_eval (P := P) (B := printing) (out_implements hP hO inside_put) n hok h (by decide : 0 < 100)
  rw [he] at hs
  obtain ⟨k, a, s1, hm, hL⟩ := hs
  obtain ⟨W1, hr⟩ := hL st1 rfl
  obtain ⟨new, t, h1, h2, h3⟩ := hr.ext
  refine ⟨k, a, t, s1, W1, hm, hr, ?_, h3⟩
  rw [h1, List.drop_left]
  exact h2

/-- The forms of a script. -/
theorem console_runs (hP : HasStd P FA) (hO : HasOut P F obj C) {fs : List Ref.Form} {l : List (List Event × Option Ref.Val)} {st st' : Store} (hok : ∀ f ∈ fs, f.Ok Registered)
    (hv : Runs st fs l st') : ∀ {W : World} {s : St σ}, StRel (since C s.ext st.out) Registered W st s →
      ∃ t s', Transcript l t ∧ consoleRun P F obj C (fs.map Ref.Form.toV) s = some (.ok (), s') ∧ C.get s'.ext = C.get s.ext ++ t := by
  induction hv with
  | nil => intro W s h; exact ⟨[], s, .nil, rfl, (List.append_nil _).symm⟩
  | @cons st n f v st1 es fs l st2 he hes _ ih =>
    intro W s h
    obtain ⟨w, t, s1, W1, hm, hw, hr, ht, hg⟩ := console_form hP hO (hok f (.head _)) he h
    rw [hes, List.drop_left] at ht
    have h2 : StRel (since C (C.put (answerText F obj (.value w)) s1.ext) st1.out) Registered W1 st1 { s1 with ext := C.put (answerText F obj (.value w)) s1.ext } :=
      rebase (X' := since C (C.put (answerText F obj (.value w)) s1.ext) st1.out) hr ⟨rfl, rfl⟩ since_self
    obtain ⟨u, s2, hu, hx, hg2⟩ := ih (fun g hg => hok g (.tail _ hg)) (s := { s1 with ext := C.put (answerText F obj (.value w)) s1.ext }) h2
    have step : consoleRun P F obj C ((f :: fs).map Ref.Form.toV) s = some (.ok (), s2) := by
      show (evalRun P f.toV >>= fun r => emit C (answerText F obj r) >>= fun _ => consoleRun P F obj C (fs.map Ref.Form.toV)) s = _
      rw [bind_apply, hm]
      exact hx
    have hg3 : C.get s2.ext = C.get s.ext ++ (t ++ (answerText F obj (.value w) ++ u)) := by
      rw [hg2, C.get_put, hg]
      simp only [List.append_assoc]
    by_cases hn : v = .unspecified
    · subst hn
      have : w = .none := hw
      subst this
      exact ⟨t ++ u, s2, .silent ht hu, step, hg3⟩
    · obtain ⟨a, ha, hE⟩ := line_ext (F := F) (obj := obj) hw.same hn
      refine ⟨t ++ (a ++ [10] ++ u), s2, .line hn ht hE hu, step, ?_⟩
      rw [hg3]
      simp [answerText, ha]
  | @error st n f st1 es fs l st2 he hes _ ih =>
    intro W s h
    obtain ⟨k, a, t, s1, W1, hm, hr, ht, hg⟩ := console_wrong hP hO (hok f (.head _)) he h
    rw [hes, List.drop_left] at ht
    have h2 : StRel (since C (C.put [] s1.ext) st1.out) Registered W1 st1 { s1 with ext := C.put [] s1.ext } :=
      rebase (X' := since C (C.put [] s1.ext) st1.out) hr ⟨rfl, rfl⟩ since_self
    obtain ⟨u, s2, hu, hx, hg2⟩ := ih (fun g hg => hok g (.tail _ hg)) (s := { s1 with ext := C.put [] s1.ext }) h2
    refine ⟨t ++ u, s2, .error ht hu, ?_, ?_⟩
    · show (evalRun P f.toV >>= fun r => emit C (answerText F obj r) >>= fun _ => consoleRun P F obj C (fs.map Ref.Form.toV)) s = _
      rw [bind_apply, hm]
      exact hx
    · rw [hg2, C.get_put, hg]
      simp only [List.append_assoc, List.nil_append]

theorem console_start (x : σ) : StRel (since C (start x).ext (initial builtinNames).out) Registered (fun _ => none) (initial builtinNames) (start x) :=
  rebase (X' := since C (start x).ext (initial builtinNames).out) (Ref.start_rel x) ⟨rfl, rfl⟩ since_self

end Scr

/-- **C142** A script whose forms have values or are errors prints, for each form, what the calls of `display`, `write` and `newline` in it print, in this order (up to
the error), and then its value, if it has one; nothing else; and it exits with status 0. -/
theorem c142_script_partial (hP : HasStd P FA) (hO : HasOut P F obj C) (x : σ) {text : Bytes} {fs : List Ref.Form} {l : List (List Event × Option Ref.Val)} {st : Store}
    (ht : ProgramText F text (fs.map Ref.Form.toV)) (hne : fs ≠ []) (hok : ∀ f ∈ fs, f.Ok Registered) (hv : Runs (initial builtinNames) fs l st) :
    ∃ t, Transcript l t ∧ ∀ o seen, ConsoleOutcome P F obj C x text o seen ↔ o = .ok 0 ∧ seen = C.get x ++ t := by
  obtain ⟨f, fs, rfl⟩ := List.exists_cons_of_ne_nil hne
  obtain ⟨t, s', hl, hx, hg⟩ := console_runs (F := F) (obj := obj) hP hO hok hv (console_start x)
  have hrun : (consoleRun P F obj C ((f :: fs).map Ref.Form.toV) >>= fun _ => pure (0 : Int)) (start x) = some (.ok 0, s') := by
    rw [bind_apply, hx]
    rfl
  refine ⟨t, hl, fun o seen => ⟨?_, ?_⟩⟩
  · rintro ⟨n, s, h, rfl⟩
    rw [console_run ht] at h
    cases lub_det (console_lub (P := P) (F := F) (obj := obj) (C := C)) hrun h
    exact ⟨rfl, hg⟩
  · rintro ⟨rfl, rfl⟩
    obtain ⟨n, hn⟩ := (console_lub (P := P) (F := F) (obj := obj) (C := C)).lub _ _ hrun
    exact ⟨n, s', by rw [console_run ht]; exact hn, hg⟩

namespace Scr

theorem escaped_length {n : Nat} {t : Bytes} (h : Escaped n t) : 1 ≤ t.length := by
  cases h with
  | plain => exact Nat.le_refl _
  | octal => exact Nat.le_add_left _ _
  | _ => decide

theorem escapedAll_length {cs : List Char} {t : Bytes} (h : EscapedAll cs t) : cs.length ≤ t.length := by
  induction h with
  | nil => exact Nat.le_refl _
  | cons h _ ih =>
    have := escaped_length h
    simp only [List.length_cons, List.length_append]
    omega

end Scr

/-- **C142** fails for lists with strings in them: `(display (list s))` does not print the characters of the string as they are. -/
theorem c142_display_list_fails (hO : HasOut P F obj C) (x : σ) (s : String) (hs : ∀ c ∈ s.toList, c.toNat < 256) :
    ∃ t, P.call "display" [listOf [.str s]] x = .done (.ok .none) (C.put t x) ∧ ¬ Disp .datum (.pair (.str s) .nil) t := by
  refine ⟨_, hO.ok x rfl, ?_⟩
  show ¬ Disp .datum (.pair (.str s) .nil) (displayText F obj (.pair (.str s) .nil))
  rw [displayText_pair]
  have hE : Ext .datum (.pair (.str s) .nil) (valueText F obj (.pair (.str s) .nil)) := write_shown ⟨_, _, rfl, rfl, rfl⟩ ⟨hs, trivial, by rintro (h | h | h | h) <;> cases h⟩
  generalize valueText F obj (.pair (.str s) .nil) = t at hE
  intro hD
  cases hE with
  | list ha hd =>
    cases hd with
    | dotted h => exact h rfl
    | last =>
      cases ha with
      | str he =>
        generalize hu : (40 :: (34 :: (_ ++ [34]) ++ [] ++ [41]) : Bytes) = u at hD
        cases hD with
        | list hb hc =>
          cases hc with
          | dotted h => exact h rfl
          | last =>
            cases hb with
            | str h =>
              have h1 := congrArg List.length h
              have h2 := congrArg List.length hu
              have h3 := escapedAll_length he
              simp only [List.length_map, List.length_cons, List.length_append, List.length_nil] at h1 h2
              omega

/-! ## Cases -/

namespace Scr.Demo

/-- An output stream that keeps what was printed. -/
def memory : Console Bytes := ⟨id, fun b x => x ++ b, fun _ _ => rfl⟩

theorem std_no_out {f : Pscm.Ev.Name} (hf : f ∈ Ref.outNames) (args : List V) : stdCall FA f args = none := by
  have h1 : listCall f args = none := by
    unfold listCall
    split <;> first | rfl | exact absurd hf (by decide)
  have h2 : moreCall f args = none := by
    have hn : f = "display" ∨ f = "write" ∨ f = "newline" := by simpa [Ref.outNames] using hf
    rcases hn with rfl | rfl | rfl
    all_goals
      match args with
      | [] => rfl
      | [_] => rfl
      | _ :: _ :: _ => rfl
  have h3 : ∀ ns, numCall FA f ns = none := by
    intro ns
    unfold numCall
    split <;> first | rfl | exact absurd hf (by decide)
  unfold stdCall
  rw [h1, h2]
  show (numsOf args).bind (numCall FA f) = none
  cases numsOf args with
  | none => rfl
  | some ns => exact h3 ns

theorem out_name {f : Pscm.Ev.Name} {args : List V} {t : Bytes} (h : outText F obj f args = some t) : f ∈ Ref.outNames := by
  unfold outText at h
  split at h
  · decide
  · decide
  · decide
  · cases h

/-- Interpreters with these builtins exist. -/
theorem withOut_has (P : Prims σ) : HasStd (withOut F obj C (withStd FA P)) FA ∧ HasOut (withOut F obj C (withStd FA P)) F obj C := by
  have hs := withStd_has FA P
  have same : ∀ {f args r} (x : σ), stdCall FA f args = some r → (withOut F obj C (withStd FA P)).call f args x = (withStd FA P).call f args x := by
    intro f args r x h
    have hf : f ∉ Ref.outNames := fun hf => by rw [std_no_out hf] at h; cases h
    simp only [withOut]
    cases ht : outText F obj f args with
    | some t => exact absurd (out_name ht) hf
    | none => exact if_neg (by rintro (rfl | rfl) <;> exact hf (by decide))
  refine ⟨⟨?_, ?_, ?_, ?_, rfl, rfl⟩, ⟨?_, ?_⟩⟩
  · intro f args v x h; rw [same x h]; exact hs.ok x h
  · intro f args v x h; rw [same x h]; exact hs.err x h
  · intro f args x h; rw [same x h]; exact hs.abort x h
  · intro f args x h; rw [same x h]; exact hs.ub x h
  · intro f args t x h; simp only [withOut, h]
  · rintro f x (rfl | rfl) <;> exact ⟨_, _, rfl⟩

/-- `(display "hi")`, `(newline)`, `(begin (write "hi") (+ 1 2))`. -/
def shows : List Ref.Form :=
  [.exp (.app (.var "display") [.const (.str "hi")]), .exp (.app (.var "newline") []),
    .exp (.begin [.app (.var "write") [.const (.str "hi")], .app (.var "+") [.const (.num 1), .const (.num 2)]])]

theorem shows_runs : ∃ st, Runs (initial builtinNames) shows [([.display (.str "hi")], some .unspecified), ([.newline], some .unspecified), ([.write (.str "hi")], some (.num 3))] st :=
  ⟨_, .cons (n := 10) (st1 := { initial builtinNames with out := [.display (.str "hi")] }) rfl rfl
    (.cons (n := 10) (st1 := { initial builtinNames with out := [.display (.str "hi"), .newline] }) rfl rfl
      (.cons (n := 10) (st1 := { initial builtinNames with out := [.display (.str "hi"), .newline, .write (.str "hi")] }) rfl rfl .nil))⟩

/-- `(begin (newline) (car 5))`, `(newline)`. -/
def stops : List Ref.Form :=
  [.exp (.begin [.app (.var "newline") [], .app (.var "car") [.const (.num 5)]]), .exp (.app (.var "newline") [])]

theorem stops_runs : ∃ st, Runs (initial builtinNames) stops [([.newline], none), ([.newline], some .unspecified)] st :=
  ⟨_, .error (n := 10) (st1 := { initial builtinNames with out := [.newline] }) rfl rfl
    (.cons (n := 10) (st1 := { initial builtinNames with out := [.newline, .newline] }) rfl rfl .nil)⟩

theorem stops_texts : HasTexts (stops.map Ref.Form.toV) (stops.map fun f => (toD f.toV).getD .nil) := by
  refine .cons (hasText ?_ ?_ ?_) (.cons (hasText ?_ ?_ ?_) .nil)
  all_goals first | decide +kernel | (intro s h; cases h)

theorem shows_texts : HasTexts (shows.map Ref.Form.toV) (shows.map fun f => (toD f.toV).getD .nil) := by
  refine .cons (hasText ?_ ?_ ?_) (.cons (hasText ?_ ?_ ?_) (.cons (hasText ?_ ?_ ?_) .nil))
  all_goals first | decide +kernel | (intro s h; cases h)

end Scr.Demo

/-- The program prints `hi`, a line feed, an external representation of the string, and the numeral of 3. -/
example (hP : HasStd P FA) (hO : HasOut P F obj C) (x : σ) : ∃ w n, Ext .datum (.str "hi") w ∧ Spec.IsNumeral 10 3 n ∧
    ∀ o seen, ConsoleOutcome P F obj C x (listing F (Scr.Demo.shows.map fun f => (toD f.toV).getD .nil)) o seen ↔ o = .ok 0 ∧ seen = C.get x ++ (asc "hi\n" ++ w ++ n ++ [10]) := by
  obtain ⟨st, hv⟩ := Scr.Demo.shows_runs
  obtain ⟨t, ht, h⟩ := c142_script_partial hP hO x (c140_text (F := F) Scr.Demo.shows_texts) (by simp [Scr.Demo.shows])
    (by simp [Scr.Demo.shows, Ref.Form.Ok, Ref.Exp.Ok, Ref.Exp.Oks]; decide) hv
  have one : ∀ {e : Event} {l : List Event} {t : Bytes}, l = [e] → ShownAll l t → Shown e t := by
    intro e l t hl hs
    cases hs with
    | nil => cases hl
    | @snoc es e' t u h1 h2 =>
      cases es with
      | nil =>
        cases hl
        generalize hz : ([] : List Event) = z at h1
        cases h1 with
        | nil => exact h2
        | snoc _ _ => exact absurd (congrArg List.length hz) (by simp)
      | cons _ es => exact absurd (congrArg List.length hl) (by simp)
  cases ht with
  | line hu => exact absurd rfl hu
  | silent h1 ht =>
    cases ht with
    | line hu => exact absurd rfl hu
    | silent h2 ht =>
      cases ht with
      | line _ h3 hE ht =>
        cases ht
        cases one rfl h2
        cases one rfl h1 with
        | display hd =>
          cases one rfl h3 with
          | write hw =>
            cases hE trivial with
            | num hn =>
              cases hd (.inl ⟨_, rfl, by decide⟩) with
              | str he =>
                refine ⟨_, _, hw (by intro c hc; exact (show ∀ c ∈ "hi".toList, c.toNat < 256 by decide) c hc), hn, ?_⟩
                have e : ∀ t : Bytes, t.map UInt8.toNat = [104, 105] → t = asc "hi" := by
                  intro t h
                  cases t with
                  | nil => cases h
                  | cons a t =>
                  cases t with
                  | nil => simp at h
                  | cons b t =>
                  cases t with
                  | cons => simp at h
                  | nil =>
                  simp only [List.map_cons, List.map_nil, List.cons.injEq, and_true] at h
                  rw [show a = 104 from UInt8.toNat_inj.1 h.1, show b = 105 from UInt8.toNat_inj.1 h.2]
                  rfl
                rw [e _ he] at h
                simpa only [List.append_assoc, List.append_nil, show asc "hi\n" = asc "hi" ++ [10] from rfl] using h

/-- A form that prints before it is an error, and another one. -/
example (hP : HasStd P FA) (hO : HasOut P F obj C) (x : σ) : ∃ t u, ShownAll [.newline] t ∧ ShownAll [.newline] u ∧
    ∀ o seen, ConsoleOutcome P F obj C x (listing F (Scr.Demo.stops.map fun f => (toD f.toV).getD .nil)) o seen ↔ o = .ok 0 ∧ seen = C.get x ++ (t ++ (u ++ [])) := by
  obtain ⟨st, hv⟩ := Scr.Demo.stops_runs
  obtain ⟨t, ht, h⟩ := c142_script_partial hP hO x (c140_text (F := F) Scr.Demo.stops_texts) (by simp [Scr.Demo.stops])
    (by simp [Scr.Demo.stops, Ref.Form.Ok, Ref.Exp.Ok, Ref.Exp.Oks]; decide) hv
  cases ht with
  | error h1 ht =>
    cases ht with
    | line hu => exact absurd rfl hu
    | silent h2 ht =>
      cases ht
      exact ⟨_, _, h1, h2, h⟩

/-- `(display (list "a"))`. -/
example (x : Bytes) (P : Prims Bytes) : ∃ t, (withOut F obj Scr.Demo.memory (withStd FA P)).call "display" [listOf [.str "a"]] x = .done (.ok .none) (x ++ t) ∧
    ¬ Disp .datum (.pair (.str "a") .nil) t := c142_display_list_fails (Scr.Demo.withOut_has P).2 x "a" (by decide)

end Pscm
